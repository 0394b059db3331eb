import Verif.Model.Cache
import Verif.Lemmas.Path

/-!
Specification vocabulary for the cache. It talks about states of the file system only.
-/

namespace Verif.Spec

open Verif.Go Verif.Model

/-- The cached files: all files below the cache directory that are not in a directory for temporary
files. -/
def entries (cacheDir : Str) (fs : FS) : List (Str × File) :=
  fs.filter fun e => visited cacheDir b!".tmp" e.1

/-- Total size of the cached files. -/
def entriesSize (cacheDir : Str) (fs : FS) : Int := totalSize (entries cacheDir fs)

/-- Total size of everything below the cache directory, including temporary files. -/
def dirSize (cacheDir : Str) (fs : FS) : Int := totalSize (fs.filter fun e => under cacheDir e.1)

/-- Total size of the temporary files below the cache directory. -/
def tempSize (d : Str) (fs : FS) : Int :=
  totalSize (fs.filter fun e => under d e.1 && !visited d b!".tmp" e.1)

/-- A call of the cache with a usable key: the folder is an ordinary folder (not the one for temporary
files), the name is not one of ``, `.`, `..`, the random part of the temp file are decimal digits, the cache
directory itself is not called `.tmp`. -/
structure ValidKey (env : CacheEnv) (folder filename : Str) : Prop where
  folder_plain : Plain folder
  folder_ne : folder ≠ b!".tmp"
  name_ok : filename ∉ [b!"", b!".", b!".."]
  dir_ne : (cleanElems env.cacheDir).getLast? ≠ some b!".tmp"

/-- Decimal digits as appended by `os.CreateTemp`. -/
def Digits (rnd : Str) : Prop := rnd ≠ [] ∧ ∀ c ∈ rnd, 48 ≤ c ∧ c ≤ 57

/-- The walk visits every file exactly once, in some order. -/
def WalkOk (env : CacheEnv) : Prop := ∀ l, (env.walk l).Perm l

/-- `e` is a right choice for eviction among the files `l`. -/
def BestVictim (strategy : Strategy) (e : Str × File) (l : List (Str × File)) : Prop :=
  e ∈ l ∧
  match strategy with
  | .none => False
  | .largest => ∀ x ∈ l, x.2.size ≤ e.2.size
  | .lru => ∀ x ∈ l, e.2.mtime ≤ x.2.mtime

/-- One eviction: allowed only while the cache plus the additional `net` bytes reaches the limit; removes
exactly one cached file that is the right choice. -/
def EvictStep (cacheDir : Str) (maxSize : Int) (strategy : Strategy) (net : Int) (fs fs' : FS) : Prop :=
  maxSize ≤ dirSize cacheDir fs + net ∧
  ∃ e, BestVictim strategy e (entries cacheDir fs) ∧ fs' = fs.erase e.1

/-- A sequence of evictions. -/
inductive Evictions (cacheDir : Str) (maxSize : Int) (strategy : Strategy) (net : Int) : FS → FS → Prop
  | refl (fs) : Evictions cacheDir maxSize strategy net fs fs
  | step {fs fs' fs''} : EvictStep cacheDir maxSize strategy net fs fs' →
      Evictions cacheDir maxSize strategy net fs' fs'' → Evictions cacheDir maxSize strategy net fs fs''

/-! ### Histories -/

/-- The effect of one use of the cache: a write or a lookup, complete (with any result, under any faults) or
killed after any of its file-system operations. -/
inductive CacheStep (env : CacheEnv) : FS → FS → Prop
  | write {folder name reader rnd now ff n fs} : ValidKey env folder name → Digits rnd →
      CacheStep env fs (cacheToFile env folder name reader rnd now ff n fs).fs
  | writeKilled {folder name reader rnd now ff n fs s} : ValidKey env folder name → Digits rnd →
      s ∈ (cacheToFile env folder name reader rnd now ff n fs).log → CacheStep env fs s
  | lookup {folder name now ff n fs} : ValidKey env folder name →
      CacheStep env fs (getFile env folder name now ff n fs).fs
  | lookupKilled {folder name now ff n fs s} : ValidKey env folder name →
      s ∈ (getFile env folder name now ff n fs).log → CacheStep env fs s

/-- Any finite history of uses of the cache. -/
inductive CacheHistory (env : CacheEnv) : FS → FS → Prop
  | refl (fs) : CacheHistory env fs fs
  | step {fs fs' fs''} : CacheHistory env fs fs' → CacheStep env fs' fs'' → CacheHistory env fs fs''

/-- What the user of the cache observes of one use. -/
inductive CacheEvent where
  /-- a write returned without error -/
  | wrote (folder name content : Str)
  /-- a write returned an error (or panicked) -/
  | writeFailed (folder name : Str)
  /-- the program was killed during a write -/
  | writeKilled (folder name content : Str)
  /-- a lookup, complete or killed -/
  | looked (folder name : Str)

/-- Histories with their observable events, the newest event first. -/
inductive CacheRun (env : CacheEnv) : FS → List CacheEvent → FS → Prop
  | refl (fs) : CacheRun env fs [] fs
  | wrote {fs h fs' folder name reader rnd now ff n p} : CacheRun env fs h fs' → ValidKey env folder name →
      Digits rnd → (cacheToFile env folder name reader rnd now ff n fs').res = .ok p →
      CacheRun env fs (.wrote folder name reader.bytes :: h)
        (cacheToFile env folder name reader rnd now ff n fs').fs
  | writeFailed {fs h fs' folder name reader rnd now ff n} : CacheRun env fs h fs' → ValidKey env folder name →
      Digits rnd → (cacheToFile env folder name reader rnd now ff n fs').res.isOk = false →
      CacheRun env fs (.writeFailed folder name :: h)
        (cacheToFile env folder name reader rnd now ff n fs').fs
  | writeKilled {fs h fs' folder name reader rnd now ff n s} : CacheRun env fs h fs' → ValidKey env folder name →
      Digits rnd → s ∈ (cacheToFile env folder name reader rnd now ff n fs').log →
      CacheRun env fs (.writeKilled folder name reader.bytes :: h) s
  | looked {fs h fs' folder name now ff n} : CacheRun env fs h fs' → ValidKey env folder name →
      CacheRun env fs (.looked folder name :: h) (getFile env folder name now ff n fs').fs
  | lookedKilled {fs h fs' folder name now ff n s} : CacheRun env fs h fs' → ValidKey env folder name →
      s ∈ (getFile env folder name now ff n fs').log → CacheRun env fs (.looked folder name :: h) s

/-- The contents that a lookup of (folder, name) may yield after the given events, when `init` are the
contents the cache had before: that of the last successful write, or of a write after it that was killed. -/
def Possible (init : Str → Str → Str → Prop) : List CacheEvent → (folder name : Str) → Str → Prop
  | [], folder, name, c => init folder name c
  | .wrote f n b :: h, folder, name, c =>
    if f = folder ∧ n = name then c = b else Possible init h folder name c
  | .writeKilled f n b :: h, folder, name, c =>
    (f = folder ∧ n = name ∧ c = b) ∨ Possible init h folder name c
  | .writeFailed _ _ :: h, folder, name, c => Possible init h folder name c
  | .looked _ _ :: h, folder, name, c => Possible init h folder name c

end Verif.Spec
