import Verif.Model.Guards
import Verif.Model.StatsJson
import Verif.Model.StatsText

/-!
# Writing the statistics: src/generator/stats.go, lines 254-346
-/

namespace Verif.Model
open Verif.Go FsM

/-- `OsFilesystem.Create`, src/util/files.go:295-299: an existing file becomes empty. -/
def createChecked (path : Str) (now : Int) : FsM Unit := do
  requireSanitized path
  prim fun fs => (.ok (), fs.put path ⟨[], now⟩)

/-- src/generator/stats.go:331-343: the output file is created and the content is copied to it, byte by byte as in
`CacheToFile` (`io.Copy`). -/
def writeStats (path content : Str) (now : Int) : FsM Unit := do
  createChecked path now
  copyTo path now content true

/-- The content of the output file, src/generator/stats.go:254-329. -/
def statsContent (env : StatsEnv) (text : StatsTextEnv) (outputType : Str) (files : List Str) : Res Str :=
  if outputType = b!"stats-json" then (combinedStats env outputType files).bind fun c => .ok (bookStatsFile c)
  else if outputType = b!"stats-txt" then combinedText env text files
  else .err

/-- `GenerateCombinedStats`, src/generator/stats.go:254-346. Reading the files of the articles is part of `StatsEnv`; the check of their paths
is left out, they are entries of the cache (C91). -/
def generateCombinedStats (env : StatsEnv) (text : StatsTextEnv) (outputType : Str) (files : List Str) (path : Str) (now : Int) : FsM Unit :=
  match statsContent env text outputType files with
  | .ok content => writeStats path content now
  | .err => throwErr
  | .panic => throwPanic
  | .fatal => throwFatal

end Verif.Model
