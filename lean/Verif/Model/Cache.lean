import Verif.Model.FileSystem
import Verif.Model.CachePath

/-!
# The cache: src/cache/cache.go and the directory walks of src/util/files.go

The global configuration is the parameter `env`, the clock is a parameter of each call, `walk` is the order
in which `filepath.Walk` visits the files (any permutation).
-/

namespace Verif.Model

open Verif.Go FsM

/-- `CacheEvictionStrategy`, src/config/config.go (values none, largest, lru; others are rejected by
`AssertValidity`). -/
inductive Strategy where
  | none
  | largest
  | lru
  deriving DecidableEq, Repr

/-- The part of the configuration that the cache uses and the environment. -/
structure CacheEnv where
  cacheDir : Str
  maxSize : Int
  /-- in minutes -/
  maxAge : Int
  strategy : Strategy
  /-- order of directory walks -/
  walk : List (Str × File) → List (Str × File)

/-- A reader: the bytes it delivers and whether it ends regularly (EOF) or with an error. -/
structure Reader where
  bytes : Str
  eof : Bool

/-- `OsFilesystem.DirSizeInBytes`, src/util/files.go:301-326: all files below the directory, also the
temporary ones. -/
def dirSizeInBytes (dir : Str) : FsM Int := prim fun fs =>
  (.ok (totalSize (fs.filter fun e => under dir e.1)), fs)

/-- The callback of `FindLargestFile`, src/util/files.go:343-347. -/
def largerStep (cur : Option (Str × File)) (e : Str × File) : Option (Str × File) :=
  match cur with
  | none => some e
  | some c => if e.2.size > c.2.size then some e else some c

/-- `OsFilesystem.FindLargestFile`, src/util/files.go:328-362. Without any file the nil pointer
`currentLargestFile` is dereferenced in line 361. -/
def findLargestFile (env : CacheEnv) (dir exceptDir : Str) : FsM (Int × Str) := prim fun fs =>
  match ((env.walk fs).filter fun e => visited dir exceptDir e.1).foldl largerStep none with
  | some (p, f) => (.ok (f.size, p), fs)
  | none => (.panic, fs)

/-- The callback of `FindLruFile`, src/util/files.go:379-383. -/
def olderStep (cur : Option (Str × File)) (e : Str × File) : Option (Str × File) :=
  match cur with
  | none => some e
  | some c => if e.2.mtime < c.2.mtime then some e else some c

/-- `OsFilesystem.FindLruFile`, src/util/files.go:364-403. Without any file the path is empty. -/
def findLruFile (env : CacheEnv) (dir exceptDir : Str) : FsM (Int × Str) := prim fun fs =>
  match ((env.walk fs).filter fun e => visited dir exceptDir e.1).foldl olderStep none with
  | some (p, f) => (.ok (f.size, p), fs)
  | none => (.ok (0, []), fs)

/-- `deleteLargestFileFromCache`, src/cache/cache.go:169-185. -/
def deleteLargestFileFromCache (env : CacheEnv) (cacheSize : Int) : FsM Int := do
  let (largestFileSize, largestFilePath) ← findLargestFile env env.cacheDir tempDirName
  remove largestFilePath
  pure (cacheSize - largestFileSize)

/-- `deleteLruFileFromCache`, src/cache/cache.go:187-203. -/
def deleteLruFileFromCache (env : CacheEnv) (cacheSize : Int) : FsM Int := do
  let (lruFileSize, lruFilePath) ← findLruFile env env.cacheDir tempDirName
  remove lruFilePath
  pure (cacheSize - lruFileSize)

/-- One deletion according to the strategy, src/cache/cache.go:154-160. -/
def deleteOne (env : CacheEnv) (cacheSize : Int) : FsM Int :=
  match env.strategy with
  | .largest => deleteLargestFileFromCache env cacheSize
  | .lru => deleteLruFileFromCache env cacheSize
  | .none => throwFatal

/-- The loop of `deleteFilesFromCacheIfNeeded`, src/cache/cache.go:151-164. The loop gets a bound for the
number of iterations; result `false` means that the bound was reached (theorem `C03_eviction_terminates`
shows that this does not happen for the bound used below). -/
def evictLoop (env : CacheEnv) (net : Int) : Nat → Int → FsM Bool
  | 0, cacheSize => if env.maxSize ≤ cacheSize + net then pure false else pure true
  | k + 1, cacheSize =>
    if env.maxSize ≤ cacheSize + net then do
      let cacheSize ← deleteOne env cacheSize
      evictLoop env net k cacheSize
    else pure true

/-- Current state (not an operation of the file system, used for the loop bound only). -/
def currentState : FsM FS := fun _ n fs => ⟨.ok fs, fs, n, []⟩

/-- Net size change, src/cache/cache.go:144-148. -/
def netOf (newFileSize : Int) (existing : Option File) : Int :=
  match existing with
  | some f => newFileSize - f.size
  | none => newFileSize

/-- `deleteFilesFromCacheIfNeeded`, src/cache/cache.go:140-167. An error of the size lookup means that the
file is new. -/
def deleteFilesFromCacheIfNeeded (env : CacheEnv) (folder newFileName : Str) (newFileSize cacheSize : Int) :
    FsM Bool := do
  let existing ← attempt (stat (getFilePathInCache env.cacheDir folder newFileName))
  let fs ← currentState
  evictLoop env (netOf newFileSize existing) (fs.length + 1) cacheSize

/-- `io.Copy` into the temp file, src/cache/cache.go:89: byte by byte, so that every crash and every write
error within the copy is covered, however the reader delivers its data. -/
def copyTo (temp : Str) (now : Int) : Str → Bool → FsM Unit
  | [], true => pure ()
  | [], false => throwErr
  | b :: bs, eof => do
    appendByte temp b now
    copyTo temp now bs eof

/-- Path of the temp file: `os.CreateTemp` appends a random string to the pattern. -/
def tempFilepath (env : CacheEnv) (filename rnd : Str) : Str :=
  getTempPath env.cacheDir ++ b!"/" ++ sanitizeFilename filename ++ rnd

/-- Step 2 of `CacheToFile`, src/cache/cache.go:98-116. -/
def evictIfNeeded (env : CacheEnv) (folder filename temp : Str) : FsM Unit :=
  if env.strategy ≠ .none then do
    let cacheSize ← dirSizeInBytes env.cacheDir
    let tempStat ← stat temp
    let _ ← deleteFilesFromCacheIfNeeded env folder filename tempStat.size cacheSize
    pure ()
  else pure ()

/-- `CacheToFile`, src/cache/cache.go:56-136, executed while holding the mutex. -/
def cacheToFile (env : CacheEnv) (folder filename : Str) (reader : Reader) (rnd : Str) (now : Int) :
    FsM Str := do
  let outputFilepath := getFilePathInCache env.cacheDir folder filename
  mkdirAll (getDirPathInCache env.cacheDir folder)
  let temp := tempFilepath env filename rnd
  createTemp temp now
  deferred (do
      copyTo temp now reader.bytes reader.eof
      evictIfNeeded env folder filename temp
      close temp
      rename temp outputFilepath
      pure outputFilepath)
    (remove temp)

/-- Nanoseconds per minute. -/
def minuteNs : Int := 60000000000

/-- `isOutdated`, src/cache/cache.go:247-264, on the found file: age in whole minutes (truncated). -/
def fileIsOutdated (env : CacheEnv) (f : File) (now : Int) : Bool :=
  (now - f.mtime).tdiv minuteNs > env.maxAge

/-- src/cache/cache.go:223-229. -/
def removeIfOutdated (outdated : Bool) (filePath : Str) : FsM Unit :=
  if outdated then remove filePath else pure ()

/-- src/cache/cache.go:231-239: with the LRU strategy the times are updated, an error is only logged. -/
def touchIfLru (env : CacheEnv) (filePath : Str) (now : Int) : FsM Unit :=
  if env.strategy = .lru then do
    let _ ← attempt (chtimes filePath now)
    pure ()
  else pure ()

/-- The rest of `GetFile` after `isOutdated`, src/cache/cache.go:218-241. -/
def getFileFound (env : CacheEnv) (filePath : Str) (now : Int) : Option File → FsM (Str × Bool)
  | none => pure (filePath, false)
  | some f => do
    removeIfOutdated (fileIsOutdated env f now) filePath
    touchIfLru env filePath now
    pure (filePath, !fileIsOutdated env f now)

/-- `GetFile`, src/cache/cache.go:208-242, executed while holding the mutex. A faulty `Stat` is an error, a
missing file is not (`isOutdated`, lines 247-256). -/
def getFile (env : CacheEnv) (folder filename : Str) (now : Int) : FsM (Str × Bool) := do
  let filePath := getFilePathInCache env.cacheDir folder filename
  let found ← prim fun fs => (.ok (fs.get filePath), fs)
  getFileFound env filePath now found

end Verif.Model
