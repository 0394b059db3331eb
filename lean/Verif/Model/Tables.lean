import Verif.Model.Tokens
import Verif.Go.Strings

/-!
# Tables, src/parser/table.go
-/

namespace Verif.Model
open Verif.Go

/-- `tableStartRegex.FindStringSubmatch`, src/parser/pattern.go:50: the colons in front of the table. -/
def matchTableStart (line : Str) : Option Str :=
  if hasPrefix (line.dropWhile (· = 0x3A)) b!"{|" then some (line.takeWhile (· = 0x3A)) else none

/-- `(colspan|rowspan)="?(\d+)"?` at the beginning of a text, src/parser/pattern.go:51. -/
def matchSpan (s : Str) : Option Str :=
  if hasPrefix s b!"colspan=" || hasPrefix s b!"rowspan=" then
    let rest := s.drop 8
    let quote := if hasPrefix rest b!"\"" then b!"\"" else []
    let digits := (rest.drop quote.length).takeWhile digit
    if digits = [] then none
    else
      let after := rest.drop (quote.length + digits.length)
      some (s.take 8 ++ quote ++ digits ++ (if hasPrefix after b!"\"" then b!"\"" else []))
  else none

/-- `tableRowAndColspanRegex.FindAllStringSubmatch`: the matches; `skip` characters of the last match are still to be
skipped. -/
def findSpans : Str → (skip : Nat) → List Str
  | [], _ => []
  | _ :: t, skip + 1 => findSpans t skip
  | c :: t, 0 =>
    match matchSpan (c :: t) with
    | some m => m :: findSpans t (m.length - 1)
    | none => findSpans t 0

/-- `tableTextAlignRegex.FindStringSubmatch`, src/parser/pattern.go:52: `text-align:`, at least one character, as few as
possible without line break up to a semicolon. -/
def findTextAlign : Str → Option Str
  | [] => none
  | c :: t =>
    if hasPrefix (c :: t) b!"text-align:" then
      match t.drop 10 with
      | d :: rest =>
        match cut b!";" rest with
        | some (value, _) =>
          if d = 0x0A ∨ 0x0A ∈ value then findTextAlign t else some (b!"text-align:" ++ d :: value ++ b!";")
        | none => findTextAlign t
      | [] => findTextAlign t
    else findTextAlign t

/-- `tokenizeTableEntry`, src/parser/table.go:241-273. Result: the text and the attributes. -/
def tableEntry (rec : Rec) (content : Str) : TokM (Str × List Str) :=
  match split content b!"|" with
  | a :: text :: _ => do
    let attributeString := trimSpace a
    let entryText ← rec text
    let style := match findTextAlign attributeString with
      | some m => [b!"style=\"" ++ m ++ b!"\""]
      | none => []
    pure (entryText, findSpans attributeString 0 ++ style)
  | _ => do
    let entryText ← rec content
    pure (entryText, [])

/-- The line ends a cell or a caption, lines 171 and 220. -/
def startsCell (l : Str) : Bool := hasPrefix l b!"|" || hasPrefix l b!"!"

/-- The loop of lines 171-176: the lines of a cell behind its first one, and the lines behind the cell. `first`: the
line is trimmed before the check, which is the case for the first line only. Without a further cell or an end of the
table the index expression panics. -/
def cellLines : (lines : List Str) → (first : Bool) → Res (List Str × List Str)
  | [], _ => .panic
  | line :: rest, first =>
    let l := if first then trimSpace line else line
    if startsCell l then .ok ([], line :: rest)
    else do
      let (ls, after) ← cellLines rest false
      .ok (l :: ls, after)

/-- The loop of lines 220-225 (captions): as `cellLines`, but every line is trimmed. -/
def captionLines : (lines : List Str) → Res (List Str × List Str)
  | [] => .panic
  | line :: rest =>
    if startsCell (trimSpace line) then .ok ([], line :: rest)
    else do
      let (ls, after) ← captionLines rest
      .ok (trimSpace line :: ls, after)

/-- Line 160: row or table ended. -/
def endsRow (line : Str) : Bool :=
  hasPrefix (trimSpace line) b!"|-" || hasPrefix (trimSpace line) b!"|+" || hasPrefix (trimSpace line) b!"|}"

/-- `tokenizeTableRow`, src/parser/table.go:152-211. Result: the columns and the lines behind the row. The cell is a
heading if its last line starts with an exclamation mark (line 184). -/
def tableRow (rec : Rec) : (fuel : Nat) → (lines : List Str) → TokM (List TableCol × List Str)
  | 0, _ => TokM.running
  | _ + 1, [] => pure ([], [])
  | fuel + 1, line :: rest =>
    if endsRow line then pure ([], line :: rest)
    else do
      let text := trimSpace (trimPrefix (trimPrefix (trimSpace line) b!"|") b!"!")
      let (more, after) ← TokM.lift (cellLines rest true)
      let cell := text ++ more.flatMap fun l => b!"\n" ++ l
      let (content, attributes) ← tableEntry rec cell
      let lastLine := (line :: rest.take more.length).getLastD []
      let (cols, after) ← tableRow rec fuel after
      pure ({ attributes := attributes, content := trimSpace content,
              isHeading := hasPrefix (trimSpace lastLine) b!"!" } :: cols, after)

/-- `tokenizeTableCaption`, src/parser/table.go:215-237. -/
def tableCaption (rec : Rec) (line : Str) (rest : List Str) : TokM (Str × List Str) := do
  let (more, after) ← TokM.lift (captionLines rest)
  let caption := trimPrefix (trimSpace line ++ more.flatMap fun l => b!"\n" ++ l) b!"|+"
  let (content, _) ← tableEntry rec caption
  pure (trimSpace content, after)

/-- The loop of `tokenizeTable`, src/parser/table.go:104-138; `caption` is the caption so far. Result: the rows and the
caption. -/
def tableRows (rec : Rec) : (fuel : Nat) → (lines : List Str) → (caption : Str) → TokM (List (List TableCol) × Str)
  | 0, _, _ => TokM.running
  | _ + 1, [], caption => pure ([], caption)
  | fuel + 1, line :: rest, caption =>
    let l := trimSpace line
    if hasPrefix l b!"|+" then do
      let (caption, after) ← tableCaption rec line rest
      tableRows rec fuel after caption
    else if hasPrefix l b!"!" then do
      let (cols, after) ← tableRow rec fuel (line :: rest)
      let (rows, caption) ← tableRows rec fuel after caption
      pure (cols :: rows, caption)
    else if hasPrefix l b!"|-" then
      match rest with
      | [] => TokM.panic
      | next :: _ =>
        if startsCell next then do
          let (cols, after) ← tableRow rec fuel rest
          let (rows, caption) ← tableRows rec fuel after caption
          pure (cols :: rows, caption)
        else tableRows rec fuel rest caption
    else if hasPrefix l b!"|}" then pure ([], caption)
    else if hasPrefix l b!"|" then do
      let (cols, after) ← tableRow rec fuel (line :: rest)
      let (rows, caption) ← tableRows rec fuel after caption
      pure (cols :: rows, caption)
    else tableRows rec fuel rest caption

/-- `tokenizeTable`, src/parser/table.go:95-146. -/
def tokenizeTable (rec : Rec) (fuel : Nat) (content : Str) : TokM Token := do
  let content := replaceAll (replaceAll content b!"||" b!"\n|") b!"!!" b!"\n!"
  let (rows, caption) ← tableRows rec fuel (split content b!"\n") []
  pure (.table rows caption)

mutual
/-- `tokenizeTables`, src/parser/table.go:62-92, for a table that starts with the line `line`. Result: the key of the
table and the lines behind it. -/
def tokenizeTables (rec : Rec) : (fuel : Nat) → (line : Str) → (rest : List Str) → TokM (Str × List Str)
  | 0, _, _ => TokM.running
  | fuel + 1, line, rest => do
    let (lines, after) ← tableBody rec fuel rest
    let token ← tokenizeTable rec fuel (join b!"\n" (line :: lines))
    let key ← getToken b!"TABLE"
    setRawToken key token
    pure (key, after)

/-- The loop of `tokenizeTables`, src/parser/table.go:69-83: the lines of the table behind its first line, with keys
for inner tables, and the lines behind the table. -/
def tableBody (rec : Rec) : (fuel : Nat) → (lines : List Str) → TokM (List Str × List Str)
  | 0, _ => TokM.running
  | _ + 1, [] => pure ([], [])
  | fuel + 1, line :: rest =>
    let l := trimSpace line
    if hasPrefix l b!"{|" || hasPrefix l b!":{|" then do
      let (key, after) ← tokenizeTables rec fuel line rest
      let (lines, after) ← tableBody rec fuel after
      pure (key :: lines, after)
    else if hasPrefix l b!"|}" then pure ([line], rest)
    else do
      let (lines, after) ← tableBody rec fuel rest
      pure (line :: lines, after)
end

/-- The loop of `parseTables`, src/parser/table.go:36-55. -/
def tableLoop (rec : Rec) : (fuel : Nat) → (lines : List Str) → TokM (List Str)
  | 0, _ => TokM.running
  | _ + 1, [] => pure []
  | fuel + 1, line :: rest =>
    match matchTableStart (trimSpace line) with
    | some listPrefix => do
      let (key, after) ← tokenizeTables rec fuel line rest
      let after ← tableLoop rec fuel after
      pure ((listPrefix ++ key) :: after)
    | none => do
      let rest ← tableLoop rec fuel rest
      pure (line :: rest)

/-- `parseTables`, src/parser/table.go:33-59. -/
def parseTables (rec : Rec) (fuel : Nat) (content : Str) : TokM Str := do
  let lines ← tableLoop rec fuel (split content b!"\n")
  pure (join b!"\n" lines)

end Verif.Model
