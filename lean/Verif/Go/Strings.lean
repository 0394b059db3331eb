import Verif.Go.Bytes

/-!
# The parts of Go's package `strings` that wiki2book uses

All functions work on bytes.  The definitions are by structural recursion so that they can be
evaluated; separators are never empty in the code of wiki2book, the behaviour for empty separators is
not modelled (noted in DESIGN.md).
-/

namespace Verif.Go

variable {α : Type} [DecidableEq α]

/-- `strings.HasPrefix(s, p)` -/
def hasPrefix (s p : List α) : Bool := p.isPrefixOf s

/-- `strings.HasSuffix(s, p)` -/
def hasSuffix (s p : List α) : Bool := p.isSuffixOf s

/-- `strings.Index(s, sub)`; `none` stands for -1. -/
def indexOf (sub : List α) : List α → Option Nat
  | [] => if sub.isPrefixOf [] then some 0 else none
  | c :: t => if sub.isPrefixOf (c :: t) then some 0 else (indexOf sub t).map (· + 1)

/-- `strings.Contains(s, sub)` -/
def contains (s sub : List α) : Bool := (indexOf sub s).isSome

/-- Worker of `replaceAll`; `skip` bytes of an already replaced occurrence are still to be skipped. -/
def replaceAllGo (old new : List α) : Nat → List α → List α
  | _, [] => []
  | 0, c :: t =>
    if old.isPrefixOf (c :: t) then new ++ replaceAllGo old new (old.length - 1) t
    else c :: replaceAllGo old new 0 t
  | k + 1, _ :: t => replaceAllGo old new k t

/-- `strings.ReplaceAll(s, old, new)` for non-empty `old`: non-overlapping occurrences from the left. -/
def replaceAll (s old new : List α) : List α := replaceAllGo old new 0 s

/-- `strings.Replace(s, old, new, 1)` for non-empty `old`: only the first occurrence. -/
def replaceFirst (old new : List α) : List α → List α
  | [] => []
  | c :: t =>
    if old.isPrefixOf (c :: t) then new ++ (c :: t).drop old.length
    else c :: replaceFirst old new t

/-- Put a byte in front of the first part. -/
def consHead (c : α) : List (List α) → List (List α)
  | [] => [[c]]
  | p :: ps => (c :: p) :: ps

/-- Worker of `split`. -/
def splitGo (sep : List α) : Nat → List α → List (List α)
  | _, [] => [[]]
  | 0, c :: t =>
    if sep.isPrefixOf (c :: t) then [] :: splitGo sep (sep.length - 1) t
    else consHead c (splitGo sep 0 t)
  | k + 1, _ :: t => splitGo sep k t

/-- `strings.Split(s, sep)` for non-empty `sep`. -/
def split (s sep : List α) : List (List α) := splitGo sep 0 s

/-- Text before and after the first occurrence of `sep`. -/
def cut (sep : List α) : List α → Option (List α × List α)
  | [] => if sep.isPrefixOf [] then some ([], []) else none
  | c :: t =>
    if sep.isPrefixOf (c :: t) then some ([], (c :: t).drop sep.length)
    else (cut sep t).map fun p => (c :: p.1, p.2)

/-- `strings.SplitN(s, sep, n)` for `n ≥ 1`: at most `n` parts, the last one is the unsplit rest. -/
def splitN (sep : List α) : Nat → List α → List (List α)
  | 0, _ => []
  | 1, s => [s]
  | n + 2, s =>
    match cut sep s with
    | none => [s]
    | some (a, b) => a :: splitN sep (n + 1) b

/-- `strings.Join(parts, sep)` -/
def join (sep : List α) : List (List α) → List α
  | [] => []
  | [p] => p
  | p :: q :: r => p ++ sep ++ join sep (q :: r)

/-- `strings.TrimPrefix(s, p)` -/
def trimPrefix (s p : List α) : List α := if p.isPrefixOf s then s.drop p.length else s

/-- `strings.TrimSuffix(s, p)` -/
def trimSuffix (s p : List α) : List α :=
  if p.isSuffixOf s then s.take (s.length - p.length) else s

/-- `strings.Repeat(s, n)` -/
def repeatStr (s : List α) : Nat → List α
  | 0 => []
  | n + 1 => s ++ repeatStr s n

/-- `strings.TrimRight(s, cutset)` for a cutset of ASCII bytes. -/
def trimRightOf (p : α → Bool) (s : List α) : List α := (s.reverse.dropWhile p).reverse

/-- `strings.TrimLeft(s, cutset)` for a cutset of ASCII bytes. -/
def trimLeftOf (p : α → Bool) (s : List α) : List α := s.dropWhile p

end Verif.Go
