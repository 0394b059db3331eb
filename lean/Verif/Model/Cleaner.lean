import Verif.Go.Space

/-!
# Cleaning of wikitext, src/parser/cleaner.go: comments, list entries, sections
-/

namespace Verif.Model
open Verif.Go

/-- Lines 55-61: remove one line break at the end. -/
def dropTrailingNewline (s : Str) : Str := if s.getLast? = some 0x0A then s.dropLast else s

/-- The loop of `removeComments`, src/parser/cleaner.go:40-65, on the parts between the comment ends; the segments
are joined with the empty string (line 67). -/
def commentSegments : List Str → Str
  | [] => []
  | [last] => last
  | item :: next :: rest =>
    (match split item b!"<!--" with
      | [single] => single ++ b!"-->"
      | first :: _ => dropTrailingNewline first
      | [] => []) ++ commentSegments (next :: rest)

/-- `removeComments`, src/parser/cleaner.go:31-68. -/
def removeComments (content : Str) : Str := commentSegments (split content b!"-->")

/-- `isListBeginning`, src/parser/cleaner.go:211-213. All list characters are ASCII characters. -/
def isListBeginning (c : Byte) : Bool := c = 0x2A || c = 0x23 || c = 0x3B || c = 0x3A

/-- The decision of `removeEmptyListEntries` for a trimmed line, src/parser/cleaner.go:189-205. The code counts
characters; the list characters have one byte, so that the count is the number of such bytes. -/
def keepListLine (line : Str) : Bool :=
  match line with
  | [] => true
  | c :: _ => !isListBeginning c || line.countP isListBeginning ≠ line.length

/-- `removeEmptyListEntries`, src/parser/cleaner.go:183-209. -/
def removeEmptyListEntries (content : Str) : Str :=
  join b!"\n" (((split content b!"\n").map trimSpace).filter keepListLine)

/-- `semiHeadingDepth`, src/parser/cleaner.go:9. -/
def semiHeadingDepth : Nat := 10

/-- The loop of `headingDepth`, src/parser/cleaner.go:306-318, on the characters of the line and the characters in
reverse order. The comparison of bytes instead of characters is explained at `headingDepth`. -/
def headingLoop : List Byte → List Byte → Nat → Nat
  | c :: l, d :: r, counter =>
    if c ≠ 0x3D ∧ d ≠ 0x3D then counter
    else if c ≠ d then 0
    else headingLoop l r (counter + 1)
  | _, _, counter => counter

/-- `headingDepth`, src/parser/cleaner.go:296-321. The code compares characters, the model bytes: the loop ends at the
first position at which the line does not have `=` on both sides, and up to this position characters are bytes. -/
def headingDepth (line : Str) : Nat :=
  if ¬ hasPrefix line b!"=" ∨ ¬ hasSuffix line b!"=" then
    if hasPrefix line b!"'''" ∧ hasSuffix line b!"'''" then semiHeadingDepth else 0
  else headingLoop line line.reverse 0

/-- `walkSection`, src/parser/cleaner.go:267-292, from line `i` on, i.e. on `lines[i:]`. Result: number of lines
passed and whether the section is empty. -/
def walkSection (previousHeadingDepth : Nat) : List Str → Nat × Bool
  | [] => (0, true)
  | l :: ls =>
    let line := trimSpace l
    if headingDepth line > 0 then (0, !(headingDepth line > previousHeadingDepth))
    else
      let (n, rest) := walkSection previousHeadingDepth ls
      (n + 1, line.isEmpty && rest)

/-- `lines[i]` is a heading (line 254), for `i < len(lines)`. -/
def startsWithHeading : List Str → Bool
  | [] => false
  | l :: _ => headingDepth l > 0

/-- The loop of `removeEmptySections`, src/parser/cleaner.go:219-260. First argument: `lines[i:]`; `skip` lines are
still to be skipped. -/
def sectionLoop : List Str → (skip : Nat) → List Str
  | [], _ => []
  | _ :: rest, skip + 1 => sectionLoop rest skip
  | line :: rest, 0 =>
    if headingDepth line > 0 then
      if rest = [] then
        if headingDepth line = semiHeadingDepth then [line] else []
      else
        let (n, isEmpty) := walkSection (headingDepth line) rest
        if !isEmpty then line :: sectionLoop rest 0
        else if startsWithHeading (rest.drop n) then sectionLoop rest n
        else sectionLoop rest (n + 1)
    else line :: sectionLoop rest 0

/-- `removeEmptySections`, src/parser/cleaner.go:215-263. -/
def removeEmptySections (content : Str) : Str := join b!"\n" (sectionLoop (split content b!"\n") 0)

/-- `removeUnwantedWikitext`, src/parser/cleaner.go:179-181. -/
def removeUnwantedWikitext (content : Str) : Str := replaceAll content b!"__NOTOC__" []

end Verif.Model
