import Verif.Model.Stats

/-!
# Statistics as text, src/generator/stats.go
-/

namespace Verif.Model
open Verif.Go

/-- The orders that Go does not specify. -/
structure StatsTextEnv where
  /-- The order of the loop over the map of the articles, src/generator/stats.go:364. -/
  articles : List Str → List Str
  /-- The order of the loop over the links, src/generator/stats.go:377. -/
  links : Counts → Counts
  /-- `sort.Slice` with the numbers in descending order, src/generator/stats.go:380-382. -/
  sort : Counts → Counts

/-- The keys of a map to which the elements of the list are added one after the other. -/
def mapKeys : (keys names : List Str) → List Str
  | keys, [] => keys
  | keys, name :: rest => if name ∈ keys then mapKeys keys rest else mapKeys (keys ++ [name]) rest

/-- `generateTxtStatsContent`, src/generator/stats.go:354-390. `articles` has the keys of the map `articles`, repetitions
included. -/
def txtStats (env : StatsTextEnv) (articles : List Str) (combined : ArticleStats) : Str :=
  let result := b!"Statistics generated with wiki2book:\n\n"
  let result := result ++ b!"General:\n"
  let result := result ++ b!"  Number of characters    : " ++ decimalInt combined.numberOfCharacters ++ b!"\n"
  let result := result ++ b!"  Number of internal links: " ++ decimalInt combined.numberOfInternalLinks ++ b!"\n"
  let result := result ++ b!"\n"
  let result := result ++ b!"Article:\n"
  let result := (env.articles (mapKeys [] articles)).foldl (fun r name => r ++ b!"  " ++ name ++ b!"\n") result
  let result := result ++ b!"\n"
  let result := result ++ b!"Top 20 linked articles that are not part of the book (total: " ++
    decimal combined.uncoveredInternalLinks.length ++ b!"):\n"
  let sorted := env.sort (env.links combined.uncoveredInternalLinks)
  (sorted.take (min sorted.length 20)).foldl (fun r p => r ++ b!"  " ++ p.1 ++ b!" (" ++ decimalInt p.2 ++ b!")\n") result

/-- The content of the file that `GenerateCombinedStats` writes for the type "stats-txt", src/generator/stats.go:254-343. -/
def combinedText (env : StatsEnv) (text : StatsTextEnv) (files : List Str) : Res Str := do
  let (combined, articles) ← readStats env files 0 {} []
  .ok (txtStats text articles (addUncoveredLinks env files.length combined articles) ++ b!"\n")

end Verif.Model
