import Verif.Model.Stats
import Verif.Model.Expand

/-!
# Statistics of an article, src/generator/stats.go

The generator changes the counters while it expands the tokens. Here the expansion returns the list of these changes, in
their order; the counters are computed from it.
-/

namespace Verif.Model
open Verif.Go

/-- A change of the counters. -/
inductive StatEvent where
  /-- `expandSimpleString`, src/generator/stats.go:115-132 -/
  | text (s : Str)
  /-- `NumberOfImages++`, src/generator/stats.go:147-155 -/
  | image
  /-- `NumberOfInternalLinks++` and `InternalLinks[name]++`, src/generator/stats.go:157-161 -/
  | internalLink (name : Str)
  /-- `NumberOfExternalLinks++`, src/generator/stats.go:163-166 -/
  | externalLink
  /-- `NumberOfRefDefinitions++`, src/generator/stats.go:235-238 -/
  | refDefinition
  /-- `NumberOfRefUsages++`, src/generator/stats.go:240-243 -/
  | refUsage
  /-- `NumberOfMath++`, src/generator/stats.go:245-248 -/
  | math
  deriving DecidableEq

/-- `StatsGenerator.expandMarker`, src/generator/stats.go:134-141. -/
def statsMarker (content : Str) : Str :=
  let content := replaceAll content markerBoldOpen []
  let content := replaceAll content markerBoldClose []
  let content := replaceAll content markerItalicOpen []
  let content := replaceAll content markerItalicClose []
  replaceAll content markerParagraph []

/-- `expandTableRow` and `expandTableColumn`, src/generator/stats.go:187-201. -/
def statsRow (ex : Str → ExpM (List StatEvent)) (row : List TableCol) : ExpM (List StatEvent) := do
  let cols ← ExpM.mapM (fun col => ex col.content) row
  pure cols.flatten

/-- `expandTable` and `expandTableCaption`, src/generator/stats.go:168-185 and 203-205. -/
def statsTable (ex : Str → ExpM (List StatEvent)) (rows : List (List TableCol)) (caption : Str) : ExpM (List StatEvent) := do
  let rows ← ExpM.mapM (statsRow ex) rows
  let caption ← ex caption
  pure (rows.flatten ++ caption)

/-- `expandListItem`, src/generator/stats.go:231-233. -/
def statsItem (ex : Str → ExpM (List StatEvent)) : ItemTok → ExpM (List StatEvent)
  | .mk _ content _ => ex content

/-- `expandListItems`, src/generator/stats.go:219-229, for the three kinds of lists (lines 207-217). -/
def statsList (ex : Str → ExpM (List StatEvent)) : ListTok → ExpM (List StatEvent)
  | .mk _ items => do
    let items ← ExpM.mapM (statsItem ex) items
    pure items.flatten

/-- `expandToken`, src/generator/expand.go:10-56, with the functions of src/generator/stats.go. -/
def statsToken (ex : Str → ExpM (List StatEvent)) : Token → ExpM (List StatEvent)
  | .heading content _ => ex content
  | .inlineImage _ _ _ => pure [.image]
  | .image _ caption _ _ => do
    let c ← ex caption
    pure (.image :: c)
  | .externalLink _ text => do
    let t ← ex text
    pure (.externalLink :: t)
  | .internalLink name text => do
    let t ← ex text
    pure (.internalLink name :: t)
  | .list l => statsList ex l
  | .table rows caption => statsTable ex rows caption
  | .math _ => pure [.math]
  | .refDefinition _ content => do
    let c ← ex content
    pure (.refDefinition :: c)
  | .refUsage _ => pure [.refUsage]
  | .nowiki _ => pure []
  | .string _ => pure []

/-- The expansion of a token key, src/generator/expand.go:100-111. -/
def statsKey (tokens : List (Str × Token)) (ex : Str → ExpM (List StatEvent)) (key : Str) : ExpM (List StatEvent) :=
  match lookupToken tokens (b!"$$" ++ key ++ b!"$$") with
  | none => ExpM.err
  | some token => statsToken ex token

/-- `expandString`, src/generator/expand.go:71-130, with the functions of src/generator/stats.go. -/
def statsString (tokens : List (Str × Token)) : (fuel : Nat) → (content : Str) → ExpM (List StatEvent)
  | 0, _ => ExpM.running
  | fuel + 1, content =>
    if hasToken (statsMarker content) then
      expandLoop (fun s => [.text s]) (statsKey tokens (statsString tokens fuel)) (statsMarker content)
        (statsMarker content) 0 0 none []
    else pure [.text (statsMarker content)]

/-- What the counters depend on: the runes of a text, and which runes are letters or numbers. -/
structure RuneEnv where
  runes : Str → List Nat
  letterOrNumber : Nat → Bool

/-- The loop over the runes, src/generator/stats.go:118-129. Result: the number of words. -/
def countWords (isWord : Nat → Bool) : (runes : List Nat) → (inWord : Bool) → Int
  | [], _ => 0
  | r :: rest, inWord =>
    if isWord r then (if inWord then 0 else 1) + countWords isWord rest true else countWords isWord rest false

/-- Changes the counters. -/
def applyEvent (env : RuneEnv) (s : ArticleStats) : StatEvent → ArticleStats
  | .text t => { s with
      numberOfCharacters := s.numberOfCharacters + (env.runes t).length
      numberOfWords := s.numberOfWords + countWords env.letterOrNumber (env.runes t) false }
  | .image => { s with numberOfImages := s.numberOfImages + 1 }
  | .internalLink name => { s with
      numberOfInternalLinks := s.numberOfInternalLinks + 1
      internalLinks := s.internalLinks.add name 1 }
  | .externalLink => { s with numberOfExternalLinks := s.numberOfExternalLinks + 1 }
  | .refDefinition => { s with numberOfRefDefinitions := s.numberOfRefDefinitions + 1 }
  | .refUsage => { s with numberOfRefUsages := s.numberOfRefUsages + 1 }
  | .math => { s with numberOfMath := s.numberOfMath + 1 }

/-- The words per minute for a language, src/generator/stats.go:72-108. -/
def wordsPerMinute (instance' : Str) : Int :=
  if instance' = b!"en" then 228 else if instance' = b!"de" then 179 else if instance' = b!"fr" then 195
  else if instance' = b!"nl" then 202 else if instance' = b!"fi" then 161 else if instance' = b!"he" then 187
  else if instance' = b!"it" then 188 else if instance' = b!"jp" then 193 else if instance' = b!"pl" then 166
  else if instance' = b!"pt" then 181 else if instance' = b!"ru" then 184 else if instance' = b!"sl" then 180
  else if instance' = b!"es" then 218 else if instance' = b!"se" then 199 else if instance' = b!"tr" then 166
  else 183

/-- `Generate`, src/generator/stats.go:52-70, up to the JSON that is written. An error, which ends the
program (line 60), stays an error here. -/
def articleStats (env : RuneEnv) (tokens : List (Str × Token)) (fuel : Nat) (instance' title content : Str) :
    ExpM ArticleStats := do
  let events ← statsString tokens fuel content
  let s := events.foldl (applyEvent env) { articleName := title }
  pure { s with estimatedReadingTimeMinutes := Int.tdiv s.numberOfWords (wordsPerMinute instance') }

end Verif.Model
