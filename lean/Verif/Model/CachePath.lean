import Verif.Go.Path
import Verif.Model.Sanitize

/-!
# Path functions of the cache: src/cache/cache.go, lines 31-51 and src/util/files.go, lines 48-56

`cacheDir` is the configuration value `config.Current.CacheDir`.
-/

namespace Verif.Model

open Verif.Go

/-- `GetFilePathInCache`, src/cache/cache.go:31-33. -/
def getFilePathInCache (cacheDir folder filename : Str) : Str :=
  pathJoin [cacheDir, folder, sanitizeFilename filename]

/-- `GetRelativeFilePathInCache`, src/cache/cache.go:35-37. -/
def getRelativeFilePathInCache (folder filename : Str) : Str :=
  pathJoin [b!".", folder, sanitizeFilename filename]

/-- `ToRelativePathWithBasedir`, src/util/files.go:48-56. An error of `filepath.Rel` is swallowed: the
returned error is always nil and the path is then the empty string that `filepath.Rel` returned. -/
def toRelativePathWithBasedir (basedir path : Str) : Str :=
  if path ≠ [] then
    match rel basedir path with
    | .ok p => p
    | _ => []
  else path

/-- `GetPathRelativeToCache`, src/cache/cache.go:41-43. -/
def getPathRelativeToCache (cacheDir path : Str) : Str := toRelativePathWithBasedir cacheDir path

/-- `GetDirPathInCache`, src/cache/cache.go:45-47. -/
def getDirPathInCache (cacheDir folder : Str) : Str := pathJoin [cacheDir, folder]

/-- `TempDirName`, src/cache/cache.go:19-25. -/
def tempDirName : Str := b!".tmp"

/-- `GetTempPath`, src/cache/cache.go:49-51. -/
def getTempPath (cacheDir : Str) : Str := pathJoin [cacheDir, tempDirName]

end Verif.Model
