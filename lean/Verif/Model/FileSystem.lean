import Verif.Go.Path

/-!
# File system and execution model

A file system is a list of regular files (cleaned path, content, modification time).  Directories,
permissions and symbolic links are not modelled; the errors they can cause are covered by injected faults:
every file-system operation may fail at any time (`faults`).

Every operation appends the resulting state to a log.  The log of a function is thus the list of all
states in which the process can be killed ("crash points").
-/

namespace Verif.Model

open Verif.Go

structure File where
  content : Str
  mtime : Int
  deriving DecidableEq, Repr

/-- Size in bytes (`os.FileInfo.Size`). -/
def File.size (f : File) : Int := f.content.length

/-- A file system: regular files by cleaned path. -/
abbrev FS := List (Str × File)

namespace FS

/-- The file at a path. -/
def get (fs : FS) (p : Str) : Option File := (fs.find? (fun e => e.1 == p)).map Prod.snd

/-- Remove the file at a path. -/
def erase (fs : FS) (p : Str) : FS := fs.filter (fun e => e.1 ≠ p)

/-- Create or replace the file at a path. -/
def put (fs : FS) (p : Str) (f : File) : FS := (p, f) :: fs.erase p

/-- Every path occurs once. -/
def WF (fs : FS) : Prop := (fs.map Prod.fst).Nodup

end FS

/-- Result of running a function: its result, the new state, the number of operations so far and all
intermediate states. -/
structure Out (α : Type) where
  res : Res α
  fs : FS
  step : Nat
  log : List FS

/-- Functions working on the file system. The first argument tells which of the operations fail. -/
def FsM (α : Type) := (Nat → Bool) → Nat → FS → Out α

namespace FsM

protected def pure (a : α) : FsM α := fun _ n fs => ⟨.ok a, fs, n, []⟩

/-- Go control flow: an error, a panic or an exit ends the function. -/
protected def bind (m : FsM α) (f : α → FsM β) : FsM β := fun faults n fs =>
  let o := m faults n fs
  match o.res with
  | .ok a =>
    let o' := f a faults o.step o.fs
    ⟨o'.res, o'.fs, o'.step, o.log ++ o'.log⟩
  | .err => ⟨.err, o.fs, o.step, o.log⟩
  | .panic => ⟨.panic, o.fs, o.step, o.log⟩
  | .fatal => ⟨.fatal, o.fs, o.step, o.log⟩

instance : Monad FsM where
  pure := FsM.pure
  bind := FsM.bind

/-- The code inspects the error instead of returning it. -/
def attempt (m : FsM α) : FsM (Option α) := fun faults n fs =>
  let o := m faults n fs
  match o.res with
  | .ok a => ⟨.ok (some a), o.fs, o.step, o.log⟩
  | .err => ⟨.ok none, o.fs, o.step, o.log⟩
  | .panic => ⟨.panic, o.fs, o.step, o.log⟩
  | .fatal => ⟨.fatal, o.fs, o.step, o.log⟩

/-- `defer`: `fin` runs after `m`, whatever the result of `m` is; its own error is ignored. A program
exit (`fatal`) does not run deferred functions. -/
def deferred (m : FsM α) (fin : FsM Unit) : FsM α := fun faults n fs =>
  let o := m faults n fs
  match o.res with
  | .fatal => o
  | r =>
    let o' := fin faults o.step o.fs
    ⟨r, o'.fs, o'.step, o.log ++ o'.log⟩

/-- One operation of the file system: it may fail without effect, otherwise it has the given effect. The
state afterwards is a crash point. -/
def prim (f : FS → Res α × FS) : FsM α := fun faults n fs =>
  if faults n then ⟨.err, fs, n + 1, [fs]⟩
  else
    let (r, fs') := f fs
    ⟨r, fs', n + 1, [fs']⟩

/-- Return with an error / panic / exit of the program. -/
def throwErr : FsM α := fun _ n fs => ⟨.err, fs, n, []⟩
def throwPanic : FsM α := fun _ n fs => ⟨.panic, fs, n, []⟩
def throwFatal : FsM α := fun _ n fs => ⟨.fatal, fs, n, []⟩

/-! ### The operations used by the cache (src/util/files.go:239-252 and 256-421)

The `RequireFilePathIsSanitized` guards are not repeated here, see theorem `C10_entry_path_accepted`. -/

/-- `MkdirAll`: no effect on regular files. -/
def mkdirAll (_p : Str) : FsM Unit := prim fun fs => (.ok (), fs)

/-- `CreateTemp`: creates a new empty file, fails when the file exists (`O_EXCL`). `p` is the path with
the random suffix already appended. -/
def createTemp (p : Str) (now : Int) : FsM Unit := prim fun fs =>
  match fs.get p with
  | some _ => (.err, fs)
  | none => (.ok (), fs.put p ⟨[], now⟩)

/-- Write one byte at the end of an open file. -/
def appendByte (p : Str) (b : Byte) (now : Int) : FsM Unit := prim fun fs =>
  match fs.get p with
  | some f => (.ok (), fs.put p ⟨f.content ++ [b], now⟩)
  | none => (.ok (), fs) -- the file was unlinked, writing to the open file still works

/-- `Remove`: an error when there is no such file; the empty path never exists. -/
def remove (p : Str) : FsM Unit := prim fun fs =>
  if p = [] then (.err, fs)
  else
    match fs.get p with
    | some _ => (.ok (), fs.erase p)
    | none => (.err, fs)

/-- `Rename`: atomically replaces the target. -/
def rename (old new : Str) : FsM Unit := prim fun fs =>
  match fs.get old with
  | some f => (.ok (), (fs.erase old).put new f)
  | none => (.err, fs)

/-- `Stat`/`GetSizeInBytes`. -/
def stat (p : Str) : FsM File := prim fun fs =>
  match fs.get p with
  | some f => (.ok f, fs)
  | none => (.err, fs)

/-- `Chtimes`. -/
def chtimes (p : Str) (now : Int) : FsM Unit := prim fun fs =>
  match fs.get p with
  | some f => (.ok (), fs.put p ⟨f.content, now⟩)
  | none => (.err, fs)

/-- `Close`: no effect on the file system. -/
def close (_p : Str) : FsM Unit := prim fun fs => (.ok (), fs)

/-- `ReadFile`. -/
def readFile (p : Str) : FsM Str := prim fun fs =>
  match fs.get p with
  | some f => (.ok f.content, fs)
  | none => (.err, fs)

end FsM

/-! ### Directory walks -/

/-- Path elements of `p` below directory `dir`; `none` if `p` is not below `dir`. -/
def relElems (dir p : Str) : Option (List Str) :=
  if isAbs dir = isAbs p then
    match stripCommon (cleanElems dir) (cleanElems p) with
    | ([], []) => none
    | ([], es) => some es
    | _ => none
  else none

/-- Visited by `filepath.Walk(dir, …)`. -/
def under (dir p : Str) : Bool := (relElems dir p).isSome

/-- Visited by the walk of `FindLargestFile`/`FindLruFile` (src/util/files.go:328-403), which skips every
directory called `exceptDir` (also the root of the walk itself). -/
def visited (dir exceptDir p : Str) : Bool :=
  match relElems dir p with
  | none => false
  | some es => (cleanElems dir).getLast? ≠ some exceptDir && !es.dropLast.contains exceptDir

/-- Sum of the sizes. -/
def totalSize (l : List (Str × File)) : Int := (l.map fun e => e.2.size).sum

end Verif.Model
