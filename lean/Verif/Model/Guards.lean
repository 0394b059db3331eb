import Verif.Model.Cache

/-!
# The checks of paths in the file operations: src/util/files.go, lines 228-230 and 256-421

Each operation of `OsFilesystem` first calls `RequireFilePathIsSanitized` for its paths, which ends the program if a path is not accepted.
`Model/FileSystem.lean` leaves these checks out. Here the functions of the cache are written once more, with the checks; C91 says when both
agree. Writing to an open file, its `Stat` and its `Close` are methods of the file and have no check.
-/

namespace Verif.Model

open Verif.Go FsM

/-- `RequireFilePathIsSanitized`, src/util/files.go:228-230, with `Requiref`, src/util/contract.go:27-31. -/
def requireSanitized (path : Str) : FsM Unit := if isSanitized path then pure () else throwFatal

/-- `deleteLargestFileFromCache`, src/cache/cache.go:169-185, with the checks of `FindLargestFile` (src/util/files.go:329-330) and `Remove`
(line 290). -/
def checkedDeleteLargest (env : CacheEnv) (cacheSize : Int) : FsM Int := do
  requireSanitized env.cacheDir
  requireSanitized tempDirName
  let found ← findLargestFile env env.cacheDir tempDirName
  requireSanitized found.2
  remove found.2
  pure (cacheSize - found.1)

/-- `deleteLruFileFromCache`, src/cache/cache.go:187-203, with the checks of `FindLruFile` (src/util/files.go:365-366) and `Remove`. -/
def checkedDeleteLru (env : CacheEnv) (cacheSize : Int) : FsM Int := do
  requireSanitized env.cacheDir
  requireSanitized tempDirName
  let found ← findLruFile env env.cacheDir tempDirName
  requireSanitized found.2
  remove found.2
  pure (cacheSize - found.1)

/-- As `deleteOne`, src/cache/cache.go:154-160. -/
def checkedDeleteOne (env : CacheEnv) (cacheSize : Int) : FsM Int :=
  match env.strategy with
  | .largest => checkedDeleteLargest env cacheSize
  | .lru => checkedDeleteLru env cacheSize
  | .none => throwFatal

/-- As `evictLoop`, src/cache/cache.go:151-164. -/
def checkedEvictLoop (env : CacheEnv) (net : Int) : Nat → Int → FsM Bool
  | 0, cacheSize => if env.maxSize ≤ cacheSize + net then pure false else pure true
  | k + 1, cacheSize =>
    if env.maxSize ≤ cacheSize + net then do
      let cacheSize ← checkedDeleteOne env cacheSize
      checkedEvictLoop env net k cacheSize
    else pure true

/-- As `deleteFilesFromCacheIfNeeded`, src/cache/cache.go:140-167, with the check of `GetSizeInBytes` (src/util/files.go:260). -/
def checkedDeleteFiles (env : CacheEnv) (folder newFileName : Str) (newFileSize cacheSize : Int) : FsM Bool := do
  requireSanitized (getFilePathInCache env.cacheDir folder newFileName)
  let existing ← attempt (stat (getFilePathInCache env.cacheDir folder newFileName))
  let fs ← currentState
  checkedEvictLoop env (netOf newFileSize existing) (fs.length + 1) cacheSize

/-- As `evictIfNeeded`, src/cache/cache.go:98-116, with the check of `DirSizeInBytes` (src/util/files.go:302). -/
def checkedEvictIfNeeded (env : CacheEnv) (folder filename temp : Str) : FsM Unit :=
  if env.strategy ≠ .none then do
    requireSanitized env.cacheDir
    let cacheSize ← dirSizeInBytes env.cacheDir
    let tempStat ← stat temp
    let _ ← checkedDeleteFiles env folder filename tempStat.size cacheSize
    pure ()
  else pure ()

/-- As `cacheToFile`, src/cache/cache.go:56-136, with the checks of `MkdirAll`, `CreateTemp`, `Rename` and `Remove` (src/util/files.go:269-294).
The check in the deferred call of `Remove` is the one of `Rename` for the same path. -/
def checkedCacheToFile (env : CacheEnv) (folder filename : Str) (reader : Reader) (rnd : Str) (now : Int) : FsM Str := do
  let outputFilepath := getFilePathInCache env.cacheDir folder filename
  requireSanitized (getDirPathInCache env.cacheDir folder)
  mkdirAll (getDirPathInCache env.cacheDir folder)
  let temp := tempFilepath env filename rnd
  requireSanitized (getTempPath env.cacheDir)
  requireSanitized (sanitizeFilename filename)
  createTemp temp now
  deferred (do
      copyTo temp now reader.bytes reader.eof
      checkedEvictIfNeeded env folder filename temp
      close temp
      requireSanitized temp
      requireSanitized outputFilepath
      rename temp outputFilepath
      pure outputFilepath)
    (do requireSanitized temp; remove temp)

/-- As `removeIfOutdated`, src/cache/cache.go:223-229, with the check of `Remove` (src/util/files.go:290). -/
def checkedRemoveIfOutdated (outdated : Bool) (filePath : Str) : FsM Unit :=
  if outdated then do requireSanitized filePath; remove filePath else pure ()

/-- As `touchIfLru`, src/cache/cache.go:231-239, with the check of `Chtimes` (src/util/files.go:418). -/
def checkedTouchIfLru (env : CacheEnv) (filePath : Str) (now : Int) : FsM Unit :=
  if env.strategy = .lru then do
    requireSanitized filePath
    let _ ← attempt (chtimes filePath now)
    pure ()
  else pure ()

/-- As `getFileFound`, src/cache/cache.go:218-241. -/
def checkedGetFileFound (env : CacheEnv) (filePath : Str) (now : Int) : Option File → FsM (Str × Bool)
  | none => pure (filePath, false)
  | some f => do
    checkedRemoveIfOutdated (fileIsOutdated env f now) filePath
    checkedTouchIfLru env filePath now
    pure (filePath, !fileIsOutdated env f now)

/-- As `getFile`, src/cache/cache.go:208-264, with the check of `Stat` (src/util/files.go:412). -/
def checkedGetFile (env : CacheEnv) (folder filename : Str) (now : Int) : FsM (Str × Bool) := do
  let filePath := getFilePathInCache env.cacheDir folder filename
  requireSanitized filePath
  let found ← prim fun fs => (.ok (fs.get filePath), fs)
  checkedGetFileFound env filePath now found

end Verif.Model
