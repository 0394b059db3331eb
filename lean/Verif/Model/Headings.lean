import Verif.Model.Tokens
import Verif.Model.CloseToken
import Verif.Go.Strings

/-!
# Headings, nowiki and math, src/parser/heading.go, src/parser/nowiki.go, src/parser/math.go
-/

namespace Verif.Model
open Verif.Go

/-- Line 23: the line is a heading with at least this depth. -/
def isHeadingOf (depth : Nat) (line : Str) : Bool :=
  hasPrefix (trimSpace line) (repeatStr b!"=" depth) && hasSuffix (trimSpace line) (repeatStr b!"=" depth)

/-- The text of a heading, lines 24-25. -/
def headingText (depth : Nat) (line : Str) : Str :=
  trimSpace (replaceAll (trimSpace line) (repeatStr b!"=" depth) [])

/-- The body of the inner loop of `parseHeadings`, src/parser/heading.go:21-33. -/
def headingLine (rec : Rec) (depth : Nat) (line : Str) : TokM Str :=
  if isHeadingOf depth line then do
    let token ← getToken b!"HEADING"
    let content ← rec (headingText depth line)
    setRawToken token (.heading content depth)
    pure token
  else pure line

/-- The inner loop of `parseHeadings`, src/parser/heading.go:20-34. -/
def headingLines (rec : Rec) (depth : Nat) : List Str → TokM (List Str)
  | [] => pure []
  | line :: rest => do
    let line ← headingLine rec depth line
    let rest ← headingLines rec depth rest
    pure (line :: rest)

/-- The outer loop of `parseHeadings`, src/parser/heading.go:17-35, from the given depth down to 1. -/
def headingDepths (rec : Rec) : Nat → List Str → TokM (List Str)
  | 0, lines => pure lines
  | depth + 1, lines => do
    let lines ← headingLines rec (depth + 1) lines
    headingDepths rec depth lines

/-- `parseHeadings`, src/parser/heading.go:13-38. -/
def parseHeadings (rec : Rec) (content : Str) : TokM Str := do
  let lines ← headingDepths rec 7 (split content b!"\n")
  pure (join b!"\n" lines)

/-- The loop of `parseNowiki`, src/parser/nowiki.go:21-35. Without an end the slice expression of line 28 panics. -/
def nowikiLoop : (fuel : Nat) → (content : Str) → (i : Nat) → TokM Str
  | 0, _, _ => TokM.running
  | fuel + 1, content, i =>
    if i + 9 < content.length then
      if equalsIgnoreCase ((content.drop i).take 8) b!"<nowiki>" then
        match findCloseIgnoreCase content (i + 8) b!"<nowiki>" b!"</nowiki>" with
        | none => TokM.panic
        | some endIndex => do
          let key ← getToken b!"HEADINNOWIKI"
          setRawToken key (.nowiki ((content.take endIndex).drop (i + 8)))
          nowikiLoop fuel (content.take i ++ key ++ content.drop (endIndex + 9)) (i + 1)
      else nowikiLoop fuel content (i + 1)
    else pure content

/-- `parseNowiki`, src/parser/nowiki.go:10-38. -/
def parseNowiki (fuel : Nat) (content : Str) : TokM Str := nowikiLoop fuel content 0

/-- `mathRegex` at the beginning of a text, src/parser/pattern.go:64: `<math`, the shortest text without line break up
to `>`, the shortest text up to `</math>`. (If there is no `</math>` behind the first `>`, there is none behind a later
one.) Result: the match and its first group. -/
def matchMath (s : Str) : Option (Str × Str) :=
  if hasPrefix s b!"<math" then
    match cut b!">" (s.drop 5) with
    | none => none
    | some (attributes, rest) =>
      if 0x0A ∈ attributes then none
      else
        match cut b!"</math>" rest with
        | none => none
        | some (inner, _) => some (b!"<math" ++ attributes ++ b!">" ++ inner ++ b!"</math>", inner)
  else none

/-- `mathRegex.FindAllStringSubmatch`, src/parser/math.go:11: matches from left to right without overlap; `skip` is the
number of characters of the last match that are still to be skipped. -/
def findMath : Str → (skip : Nat) → List (Str × Str)
  | [], _ => []
  | _ :: t, skip + 1 => findMath t skip
  | c :: t, 0 =>
    match matchMath (c :: t) with
    | some m => m :: findMath t (m.1.length - 1)
    | none => findMath t 0

/-- The loop of `parseMath`, src/parser/math.go:12-18. -/
def mathLoop : List (Str × Str) → (content : Str) → TokM Str
  | [], content => pure content
  | (whole, inner) :: rest, content => do
    let key ← getToken b!"REF_MATH"
    setRawToken key (.math inner)
    mathLoop rest (replaceFirst whole key content)

/-- `parseMath`, src/parser/math.go:10-20. -/
def parseMath (content : Str) : TokM Str := mathLoop (findMath content 0) content

end Verif.Model
