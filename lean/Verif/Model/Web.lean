import Verif.Model.Cache
import Verif.Go.Atoi

/-!
# Requests: src/http/http.go

The server is a script: the list of the answers it gives one after the other (whatever the requests are). As
all theorems hold for all scripts, they hold for every behaviour of the server. A run that has used up the
script is waiting for the next answer, so that also servers are covered that never stop answering 429.
All observable actions of the program (requests, sleeping, external commands) are recorded.
-/

namespace Verif.Model

open Verif.Go

/-- What the code uses of `http.Response`. Missing headers are empty strings. -/
structure Response where
  status : Int
  /-- header `Retry-After` -/
  retryAfter : Str
  /-- header `mediawiki-api-error` -/
  apiError : Str
  /-- header `x-resource-location` -/
  location : Str
  body : Reader

/-- Result of `HttpClient.Do`. -/
inductive Answer where
  | failed
  | response (r : Response)

/-- Observable actions. -/
inductive Event where
  | request (method url body : Str)
  | sleep (seconds : Int)
  | command (args : List Str) (workDir : Str)
  deriving DecidableEq

/-- Result of an external program: whether it exited with code 0 and what it wrote into its output file (if
anything). -/
structure CommandResult where
  ok : Bool
  output : Option Str

/-- Everything outside of the program. -/
structure WebEnv where
  cache : CacheEnv
  /-- which file-system operations fail -/
  faults : Nat → Bool
  /-- time of the n-th file-system operation -/
  clock : Nat → Int
  /-- random digits chosen by `os.CreateTemp` -/
  rnd : Nat → Str
  /-- external programs -/
  command : List Str → FS → CommandResult

/-- State of the world. -/
structure World where
  fs : FS
  /-- number of file-system operations so far -/
  ops : Nat
  /-- what happened so far -/
  events : List Event
  /-- answers the server will give -/
  script : List Answer

/-- Result of a function. -/
inductive Outcome (α : Type) where
  | ok (a : α)
  | err
  | panic
  | fatal
  /-- waiting for an answer of the server -/
  | waiting
  deriving DecidableEq

/-- Functions that use files, requests and commands. -/
def Web (α : Type) := WebEnv → World → Outcome α × World

namespace Web

protected def pure (a : α) : Web α := fun _ w => (.ok a, w)

protected def bind (m : Web α) (f : α → Web β) : Web β := fun e w =>
  match m e w with
  | (.ok a, w') => f a e w'
  | (.err, w') => (.err, w')
  | (.panic, w') => (.panic, w')
  | (.fatal, w') => (.fatal, w')
  | (.waiting, w') => (.waiting, w')

instance : Monad Web where
  pure := Web.pure
  bind := Web.bind

/-- Inspect the error of a call. -/
def attempt (m : Web α) : Web (Option α) := fun e w =>
  match m e w with
  | (.ok a, w') => (.ok (some a), w')
  | (.err, w') => (.ok none, w')
  | (.panic, w') => (.panic, w')
  | (.fatal, w') => (.fatal, w')
  | (.waiting, w') => (.waiting, w')

def throwErr : Web α := fun _ w => (.err, w)
def throwPanic : Web α := fun _ w => (.panic, w)

def ofRes : Res α → Outcome α
  | .ok a => .ok a
  | .err => .err
  | .panic => .panic
  | .fatal => .fatal

/-- A pure computation that may panic. -/
def lift (r : Res α) : Web α := fun _ w => (ofRes r, w)

/-- Run file-system code; it may depend on the clock and on the random digits at its start. -/
def files (m : CacheEnv → (now : Int) → (rnd : Str) → FsM α) : Web α := fun e w =>
  let o := m e.cache (e.clock w.ops) (e.rnd w.ops) e.faults w.ops w.fs
  (ofRes o.res, { w with fs := o.fs, ops := o.step })

end Web

open Web

/-- Waiting time after 429, src/http/http.go:147-152. -/
def waitTime (retryAfter : Str) : Int := (atoi retryAfter).getD 2

/-- The loop of `doRequest`, src/http/http.go:137-165, on the script of the server. Every execution of the
request reads the body of the request to its end, and the code does not rewind it, so that later executions
send an empty body (`http.Client.Do` then even fails if the announced length is not zero; the script may
contain this failure). -/
def requestLoop (method url : Str) : (body : Str) → List Answer → List Event × Outcome Response × List Answer
  | body, [] => ([.request method url body], .waiting, [])
  | body, .failed :: script => ([.request method url body], .err, script)
  | body, .response r :: script =>
    if r.status = 429 then
      let (events, out, rest) := requestLoop method url [] script
      (.request method url body :: .sleep (waitTime r.retryAfter) :: events, out, rest)
    else if r.status ≠ 200 then ([.request method url body], .err, script)
    else if r.apiError ≠ [] then ([.request method url body], .err, script)
    else ([.request method url body], .ok r, script)

/-- `doRequest`, src/http/http.go:133-168. -/
def doRequest (method url body : Str) : Web Response := fun _ w =>
  let (events, out, rest) := requestLoop method url body w.script
  (out, { w with events := w.events ++ events, script := rest })

/-- `download`, src/http/http.go:89-110. (Creating the request fails for malformed URLs; not modelled. For the
user agent see `Model/UserAgent`.) -/
def download (url : Str) : Web Reader := do
  let r ← doRequest b!"GET" url []
  pure r.body

/-- `PostFormEncoded`, src/http/http.go:112-131. -/
def postFormEncoded (url requestData : Str) : Web Response := doRequest b!"POST" url requestData

/-- The part of `DownloadAndCache` after a miss, src/http/http.go:66-84. -/
def downloadMissing (url folder filename : Str) : Web (Str × Bool) := do
  let body ← download url
  let path ← files fun env now rnd => cacheToFile env folder filename body rnd now
  pure (path, true)

/-- `DownloadAndCache`, src/http/http.go:53-85. -/
def downloadAndCache (url folder filename : Str) : Web (Str × Bool) := do
  let (path, cached) ← files fun env now _ => getFile env folder filename now
  if cached then pure (path, false) else downloadMissing url folder filename

end Verif.Model
