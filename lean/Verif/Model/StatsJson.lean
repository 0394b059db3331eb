import Verif.Go.Json
import Verif.Model.Stats
import Verif.Model.ConfigFiles

/-!
# Statistics as JSON, src/generator/stats.go

`json.MarshalIndent` is modelled in `Go/Json`, `json.Unmarshal` in `Go/JsonRead`. Sums of numbers have no bounds; numbers in files
have 64 bits.
-/

namespace Verif.Model
open Verif.Go

/-- Order of strings by bytes, `strings.Compare`, used for the keys of maps in encoding/json. -/
def strLe : Str → Str → Bool
  | [], _ => true
  | _ :: _, [] => false
  | a :: s, b :: t => if a < b then true else if b < a then false else strLe s t

def insertKey (p : Str × Int) : Counts → Counts
  | [] => [p]
  | q :: rest => if strLe p.1 q.1 then p :: q :: rest else q :: insertKey p rest

/-- The entries of a map in the order of the keys, `mapEncoder.encode` in encoding/json. -/
def sortKeys : Counts → Counts
  | [] => []
  | p :: rest => insertKey p (sortKeys rest)

def countsFields : Counts → Fields
  | [] => .nil
  | (key, n) :: rest => .cons key (.num n) (countsFields rest)

/-- A `map[string]int` that is not nil. -/
def countsJson (m : Counts) : Json := .obj (countsFields (sortKeys m))

/-- The structure `articleStats` with the names of its tags, src/generator/stats.go:29-43. -/
def statsJson (s : ArticleStats) (top10 : Json) : Json :=
  .obj (.cons b!"article-name" (.str s.articleName)
    (.cons b!"number-of-characters" (.num s.numberOfCharacters)
    (.cons b!"number-of-words" (.num s.numberOfWords)
    (.cons b!"number-of-internal-links" (.num s.numberOfInternalLinks)
    (.cons b!"number-of-external-links" (.num s.numberOfExternalLinks)
    (.cons b!"number-of-images" (.num s.numberOfImages)
    (.cons b!"number-of-math" (.num s.numberOfMath)
    (.cons b!"number-of-ref-definitions" (.num s.numberOfRefDefinitions)
    (.cons b!"number-of-ref-usages" (.num s.numberOfRefUsages)
    (.cons b!"internal-links" (countsJson s.internalLinks)
    (.cons b!"uncovered-internal-links" (countsJson s.uncoveredInternalLinks)
    (.cons b!"top-10-uncovered-internal-links" top10
    (.cons b!"estimated-reading-time-minutes" (.num s.estimatedReadingTimeMinutes) .nil)))))))))))))

/-- The content of the file for one article, src/generator/stats.go:65-69. `Top10UncoveredInternalLinks` is nil. -/
def articleStatsFile (s : ArticleStats) : Str := encodeJson [] (statsJson s .null)

/-- The content of the output file, src/generator/stats.go:325-333 and 351-357. -/
def bookStatsFile (c : ArticleStats) : Str := encodeJson [] (statsJson c (countsJson c.top10UncoveredInternalLinks)) ++ b!"\n"

/-- The fields of `articleStats` with the names of their tags, src/generator/stats.go:29-43. -/
def statsNames : List Str :=
  [b!"article-name", b!"number-of-characters", b!"number-of-words", b!"number-of-internal-links", b!"number-of-external-links",
   b!"number-of-images", b!"number-of-math", b!"number-of-ref-definitions", b!"number-of-ref-usages", b!"internal-links",
   b!"uncovered-internal-links", b!"top-10-uncovered-internal-links", b!"estimated-reading-time-minutes"]

/-- `object`, encoding/json/decode.go, for a `map[string]int`: each value is stored in a new number, which is then put into the
map, also after an error of the type. -/
def storeCountMembers : JsonMembers → Counts → Counts × Bool
  | .nil, m => (m, false)
  | .cons key value rest, m =>
    ((storeCountMembers rest (m.set key (storeInt 0 value).1)).1,
      (storeInt 0 value).2 || (storeCountMembers rest (m.set key (storeInt 0 value).1)).2)

/-- A value for a field of type `map[string]int`. A nil map is the empty map: nothing is written to it. -/
def storeCounts (old : Counts) : JsonVal → Counts × Bool
  | .obj fields => storeCountMembers fields old
  | .null => ([], false)
  | _ => (old, true)

/-- Decodes a value into the field of `articleStats` with this name. -/
def storeStatsName (name : Str) (v : JsonVal) (s : ArticleStats) : ArticleStats × Bool :=
  if name = b!"article-name" then
    ({ s with articleName := (storeString s.articleName v).1 }, (storeString s.articleName v).2)
  else if name = b!"number-of-characters" then
    ({ s with numberOfCharacters := (storeInt s.numberOfCharacters v).1 }, (storeInt s.numberOfCharacters v).2)
  else if name = b!"number-of-words" then
    ({ s with numberOfWords := (storeInt s.numberOfWords v).1 }, (storeInt s.numberOfWords v).2)
  else if name = b!"number-of-internal-links" then
    ({ s with numberOfInternalLinks := (storeInt s.numberOfInternalLinks v).1 }, (storeInt s.numberOfInternalLinks v).2)
  else if name = b!"number-of-external-links" then
    ({ s with numberOfExternalLinks := (storeInt s.numberOfExternalLinks v).1 }, (storeInt s.numberOfExternalLinks v).2)
  else if name = b!"number-of-images" then
    ({ s with numberOfImages := (storeInt s.numberOfImages v).1 }, (storeInt s.numberOfImages v).2)
  else if name = b!"number-of-math" then
    ({ s with numberOfMath := (storeInt s.numberOfMath v).1 }, (storeInt s.numberOfMath v).2)
  else if name = b!"number-of-ref-definitions" then
    ({ s with numberOfRefDefinitions := (storeInt s.numberOfRefDefinitions v).1 }, (storeInt s.numberOfRefDefinitions v).2)
  else if name = b!"number-of-ref-usages" then
    ({ s with numberOfRefUsages := (storeInt s.numberOfRefUsages v).1 }, (storeInt s.numberOfRefUsages v).2)
  else if name = b!"internal-links" then
    ({ s with internalLinks := (storeCounts s.internalLinks v).1 }, (storeCounts s.internalLinks v).2)
  else if name = b!"uncovered-internal-links" then
    ({ s with uncoveredInternalLinks := (storeCounts s.uncoveredInternalLinks v).1 }, (storeCounts s.uncoveredInternalLinks v).2)
  else if name = b!"top-10-uncovered-internal-links" then
    ({ s with top10UncoveredInternalLinks := (storeCounts s.top10UncoveredInternalLinks v).1 },
      (storeCounts s.top10UncoveredInternalLinks v).2)
  else
    ({ s with estimatedReadingTimeMinutes := (storeInt s.estimatedReadingTimeMinutes v).1 },
      (storeInt s.estimatedReadingTimeMinutes v).2)

/-- `json.Unmarshal(fileContent, stats)`, src/generator/stats.go:282-286: nothing if there is an error. -/
def unmarshalStats (content : Str) : Option ArticleStats :=
  match parseJson content with
  | none => none
  | some v => if (storeStruct statsNames storeStatsName v {}).2 then none else some (storeStruct statsNames storeStatsName v {}).1

end Verif.Model
