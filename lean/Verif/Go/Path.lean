import Verif.Go.Strings

/-!
# The parts of Go's package `path/filepath` (unix) that wiki2book uses

The functions follow the documentation of Go's `filepath` and are written on the list of path elements
instead of Go's in-place byte buffer.
-/

namespace Verif.Go

/-- The path separator `/`. -/
abbrev sepB : Byte := 0x2F

/-- `filepath.IsAbs` on unix. -/
def isAbs (p : Str) : Bool := hasPrefix p b!"/"

/-- One element of the path is processed by `filepath.Clean`: empty elements and `.` are dropped, `..`
removes the element before it (if there is one that is not itself `..`), is dropped at the root and
kept otherwise. `stack` holds the elements kept so far, the last one first. -/
def cleanStep (rooted : Bool) (stack : List Str) (e : Str) : List Str :=
  if e = [] ∨ e = b!"." then stack
  else if e = b!".." then
    match stack with
    | top :: rest => if top = b!".." then b!".." :: stack else rest
    | [] => if rooted then [] else [b!".."]
  else e :: stack

/-- Elements of the cleaned path. -/
def cleanElems (p : Str) : List Str :=
  ((split p b!"/").foldl (cleanStep (isAbs p)) []).reverse

/-- Path with the given elements. -/
def renderPath (rooted : Bool) (es : List Str) : Str :=
  if rooted then sepB :: join b!"/" es
  else if es = [] then b!"." else join b!"/" es

/-- `filepath.Clean` on unix. -/
def clean (p : Str) : Str := renderPath (isAbs p) (cleanElems p)

/-- `filepath.Join`: leading empty elements are ignored, the rest is joined with `/` and cleaned. -/
def pathJoin (es : List Str) : Str :=
  match es.dropWhile (fun e => e = []) with
  | [] => []
  | es => clean (join b!"/" es)

/-- Removes the common leading elements of two paths. -/
def stripCommon : List Str → List Str → List Str × List Str
  | b :: bs, t :: ts => if b = t then stripCommon bs ts else (b :: bs, t :: ts)
  | bs, ts => (bs, ts)

/-- `filepath.Rel(base, targ)` on unix. -/
def rel (base targ : Str) : Res Str :=
  if clean targ = clean base then .ok b!"."
  else if isAbs base ≠ isAbs targ then .err
  else
    let (bs, ts) := stripCommon (cleanElems base) (cleanElems targ)
    if bs.head? = some b!".." then .err
    else .ok (join b!"/" (bs.map (fun _ => b!"..") ++ ts))

/-- `filepath.Abs` with working directory `cwd`. -/
def abs (cwd p : Str) : Str := if isAbs p then clean p else pathJoin [cwd, p]

/-- `filepath.Ext`: the part from the last `.` of the last path element. -/
def ext (p : Str) : Str :=
  let rec go : Str → Str → Str
    | _, [] => []
    | acc, c :: t => if c = sepB then [] else if c = 0x2E then 0x2E :: acc else go (c :: acc) t
  go [] p.reverse

/-- `filepath.Dir` on unix: everything up to the last separator, cleaned. -/
def dir (p : Str) : Str := clean (p.reverse.dropWhile (· ≠ sepB)).reverse

/-- `filepath.Base` of a path that does not end with a separator: everything after the last separator. -/
def base (p : Str) : Str := (p.reverse.takeWhile (· ≠ sepB)).reverse

end Verif.Go
