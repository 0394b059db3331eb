import Verif.Go.Bytes

/-!
# The worker threads of src/main.go, lines 334-400

Main thread and workers as a small-step state machine; every interleaving of the steps is an execution.
The processing of one article (`processArticle`) takes arbitrarily long and may have any of the results of the
relation `Result`; result `none` is the end of the program by `sigolo.FatalCheck`.
-/

namespace Verif.Model


/-- State of a worker thread, lines 366-386. -/
inductive Worker where
  /-- waits at `range articleChan` -/
  | idle
  /-- in `processArticle` -/
  | busy (article : Str)
  /-- has called `threadPoolWaitGroup.Done()` -/
  | done
  deriving DecidableEq

inductive Status where
  | running
  /-- `threadPoolWaitGroup.Wait()` has returned, the book is generated from the slots -/
  | finished
  /-- `FatalCheck` has ended the program -/
  | failed
  deriving DecidableEq

structure Pool where
  /-- articles that the main thread has not yet passed to the channel, line 389 -/
  toSend : List Str
  /-- buffer of `articleChan` -/
  chan : List Str
  closed : Bool
  workers : List Worker
  /-- `articleOutputFiles` -/
  slots : List Str
  /-- the articles processed so far (not part of the program, for the specification) -/
  log : List Str
  status : Status

/-- `articleNumber`, lines 370-375: first position of the article. -/
def articleNumber (articles : List Str) (a : Str) : Nat := articles.idxOf a

/-- State before the main loop; `make([]string, n)` has empty strings. -/
def Pool.start (articles : List Str) (threads : Nat) : Pool :=
  ⟨articles, [], false, List.replicate threads .idle, List.replicate articles.length [], [], .running⟩

/-- One step of one of the threads. `cap` is the capacity of the channel (`WorkerThreads`, line 344). -/
inductive PoolStep (articles : List Str) (cap : Nat) (Result : Str → Option Str → Prop) : Pool → Pool → Prop
  /-- line 391; blocks while the buffer is full -/
  | send {s : Pool} {a : Str} {t : List Str} : s.status = .running → s.toSend = a :: t → s.chan.length < cap →
      PoolStep articles cap Result s { s with toSend := t, chan := s.chan ++ [a] }
  /-- line 393 -/
  | close {s : Pool} : s.status = .running → s.toSend = [] → s.closed = false →
      PoolStep articles cap Result s { s with closed := true }
  /-- line 367: a worker receives an article -/
  | take {s : Pool} {i : Nat} {a : Str} {t : List Str} : s.status = .running → s.workers[i]? = some .idle → s.chan = a :: t →
      PoolStep articles cap Result s { s with chan := t, workers := s.workers.set i (.busy a) }
  /-- lines 377-378: `processArticle` returns `r`, which is stored -/
  | finish {s : Pool} {i : Nat} {a r : Str} : s.status = .running → s.workers[i]? = some (.busy a) → Result a (some r) →
      PoolStep articles cap Result s { s with
        workers := s.workers.set i .idle, slots := s.slots.set (articleNumber articles a) r, log := s.log ++ [a] }
  /-- `processArticle` ends the program -/
  | fail {s : Pool} {i : Nat} {a : Str} : s.status = .running → s.workers[i]? = some (.busy a) → Result a none →
      PoolStep articles cap Result s { s with status := .failed }
  /-- lines 367, 383: the channel is closed and empty -/
  | exit {s : Pool} {i : Nat} : s.status = .running → s.workers[i]? = some .idle → s.closed = true → s.chan = [] →
      PoolStep articles cap Result s { s with workers := s.workers.set i .done }
  /-- line 397: all workers are done -/
  | wait {s : Pool} : s.status = .running → s.closed = true → (∀ x ∈ s.workers, x = .done) →
      PoolStep articles cap Result s { s with status := .finished }

/-- Executions with `n` steps. -/
inductive PoolRun (articles : List Str) (cap : Nat) (Result : Str → Option Str → Prop) : Nat → Pool → Pool → Prop
  | zero (s) : PoolRun articles cap Result 0 s s
  | step {n s t u} : PoolRun articles cap Result n s t → PoolStep articles cap Result t u →
      PoolRun articles cap Result (n + 1) s u

/-! ## src/main.go, lines 424-485 -/

/-- What `processArticle` needs to know about one article. -/
structure ArticleOracle where
  /-- `config.Current.ForceRegenerateHtml` -/
  force : Bool
  /-- output type is one of the statistics -/
  stats : Bool
  /-- `os.Stat(html/<article>.html)` succeeds -/
  htmlExists : Str → Bool
  /-- result of download, parsing and generation: path of the file or an error -/
  generate : Str → Option Str

/-- `shouldRecreateHtml`, lines 473-483. -/
def shouldRecreateHtml (o : ArticleOracle) (a : Str) : Bool :=
  if o.force || o.stats then true else !o.htmlExists a

/-- `processArticle`, lines 424-471; `none`: `FatalCheck`. -/
def processArticle (o : ArticleOracle) (a : Str) : Option Str :=
  if !shouldRecreateHtml o a then some [] else o.generate a

end Verif.Model
