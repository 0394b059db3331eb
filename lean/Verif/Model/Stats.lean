import Verif.Model.Config
import Verif.Go.Decimal

/-!
# Statistics, src/generator/stats.go

Numbers are integers without bounds; the code has 64 bits.
-/

namespace Verif.Model
open Verif.Go

/-- A Go map from strings to numbers. The keys are distinct, the order is the one of an iteration. -/
abbrev Counts := List (Str × Int)

/-- `m[key]` of a map of numbers, zero if the key does not exist. -/
def Counts.get (m : Counts) (key : Str) : Int := (m.lookup key).getD 0

/-- `m[key] += n`. -/
def Counts.add : Counts → (key : Str) → (n : Int) → Counts
  | [], key, n => [(key, n)]
  | (k, v) :: rest, key, n => if k = key then (k, v + n) :: rest else (k, v) :: Counts.add rest key n

/-- `m[key] = n`. -/
def Counts.set : Counts → (key : Str) → (n : Int) → Counts
  | [], key, n => [(key, n)]
  | (k, v) :: rest, key, n => if k = key then (k, n) :: rest else (k, v) :: Counts.set rest key n

/-- `articleStats`, src/generator/stats.go:29-43. -/
structure ArticleStats where
  articleName : Str := []
  numberOfCharacters : Int := 0
  numberOfWords : Int := 0
  numberOfInternalLinks : Int := 0
  numberOfExternalLinks : Int := 0
  numberOfImages : Int := 0
  numberOfMath : Int := 0
  numberOfRefDefinitions : Int := 0
  numberOfRefUsages : Int := 0
  internalLinks : Counts := []
  uncoveredInternalLinks : Counts := []
  top10UncoveredInternalLinks : Counts := []
  estimatedReadingTimeMinutes : Int := 0

/-- What the combination depends on. -/
structure StatsEnv where
  /-- Reads and decodes a file, src/generator/stats.go:276-286. -/
  read : Str → Option ArticleStats
  /-- The order in which the `i`-th loop iterates over a map. -/
  range : (i : Nat) → Counts → Counts
  /-- `slices.SortFunc` with the numbers in descending order, src/generator/stats.go:311-313. -/
  sort : (count : Str → Int) → List Str → List Str

/-- The body of the loop over the files, src/generator/stats.go:288-301. `i` is the number of the file. -/
def addStats (env : StatsEnv) (i : Nat) (combined stats : ArticleStats) : ArticleStats :=
  { combined with
    numberOfCharacters := combined.numberOfCharacters + stats.numberOfCharacters
    numberOfWords := combined.numberOfWords + stats.numberOfWords
    numberOfInternalLinks := combined.numberOfInternalLinks + stats.numberOfInternalLinks
    numberOfExternalLinks := combined.numberOfExternalLinks + stats.numberOfExternalLinks
    numberOfImages := combined.numberOfImages + stats.numberOfImages
    numberOfMath := combined.numberOfMath + stats.numberOfMath
    numberOfRefDefinitions := combined.numberOfRefDefinitions + stats.numberOfRefDefinitions
    numberOfRefUsages := combined.numberOfRefUsages + stats.numberOfRefUsages
    estimatedReadingTimeMinutes := combined.estimatedReadingTimeMinutes + stats.estimatedReadingTimeMinutes
    internalLinks := (env.range i stats.internalLinks).foldl (fun m p => Counts.add m p.1 p.2) combined.internalLinks }

/-- The loop over the files, src/generator/stats.go:271-302. `articles` has the keys of the map `articles`, repetitions
included. -/
def readStats (env : StatsEnv) : (files : List Str) → (i : Nat) → (combined : ArticleStats) → (articles : List Str) →
    Res (ArticleStats × List Str)
  | [], _, combined, articles => .ok (combined, articles)
  | file :: rest, i, combined, articles =>
    match env.read file with
    | none => .err
    | some stats => readStats env rest (i + 1) (addStats env i combined stats) (articles ++ [stats.articleName])

/-- One step of the loop over all links, src/generator/stats.go:305-310. -/
def addUncovered (articles : List Str) (r : Counts × List Str) (p : Str × Int) : Counts × List Str :=
  if p.1 ∈ articles then r else (Counts.add r.1 p.1 p.2, r.2 ++ [p.1])

/-- Links that are not covered by the book, and the most frequent ones, src/generator/stats.go:304-319. `i` is the number
of the loop. -/
def addUncoveredLinks (env : StatsEnv) (i : Nat) (combined : ArticleStats) (articles : List Str) : ArticleStats :=
  let r := (env.range i combined.internalLinks).foldl (addUncovered articles) ([], [])
  let sorted := env.sort (Counts.get r.1) r.2
  { combined with
    uncoveredInternalLinks := r.1
    top10UncoveredInternalLinks := (sorted.take 10).foldl (fun m name => Counts.set m name (Counts.get r.1 name)) [] }

/-- `GenerateCombinedStats`, src/generator/stats.go:254-350, up to the numbers that are written. -/
def combinedStats (env : StatsEnv) (outputType : Str) (files : List Str) : Res ArticleStats := do
  let (combined, articles) ← readStats env files 0 {} []
  if outputType = b!"stats-json" ∨ outputType = b!"stats-txt" then .ok (addUncoveredLinks env files.length combined articles)
  else .err

end Verif.Model
