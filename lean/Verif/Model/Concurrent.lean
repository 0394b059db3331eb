import Verif.Model.Cache

/-!
# Concurrent use of the cache: `cacheWriteMutex`, src/cache/cache.go:36, 57-58, 209-210

Any number of threads call `CacheToFile` and `GetFile` at any time. A call waits for the mutex, then performs
its operations on the file system one by one and releases the mutex. Between all these operations other threads
may read files without the mutex (`os.ReadFile` in src/wikipedia/wikipedia.go). Files that are written without
the mutex (image conversion) are not part of this model.
-/

namespace Verif.Model

/-- A call of one of the two functions with the environment it meets (clock, random name, failing operations). -/
inductive CacheCall where
  | write (folder name : Str) (reader : Reader) (rnd : Str) (now : Int) (faults : Nat → Bool)
  | lookup (folder name : Str) (now : Int) (faults : Nat → Bool)

/-- Effect and result of a call that is alone. The result of a write is the path. -/
def CacheCall.run (env : CacheEnv) : CacheCall → FS → Out (Str × Bool)
  | .write folder name reader rnd now faults, fs =>
    let o := cacheToFile env folder name reader rnd now faults 0 fs
    match o.res with
    | .ok p => ⟨.ok (p, true), o.fs, o.step, o.log⟩
    | .err => ⟨.err, o.fs, o.step, o.log⟩
    | .panic => ⟨.panic, o.fs, o.step, o.log⟩
    | .fatal => ⟨.fatal, o.fs, o.step, o.log⟩
  | .lookup folder name now faults, fs => getFile env folder name now faults 0 fs

/-- What the threads observe. -/
inductive CallEvent where
  | invoke (id : Nat) (call : CacheCall)
  | respond (id : Nat) (res : Res (Str × Bool))
  | read (path : Str) (content : Option Str)

/-- The call that holds the mutex: the states it still has to go through and its result. -/
structure Active where
  id : Nat
  call : CacheCall
  rest : List FS
  out : Out (Str × Bool)

structure Conc where
  fs : FS
  /-- number of calls so far -/
  next : Nat
  /-- calls waiting for the mutex -/
  waiting : List (Nat × CacheCall)
  active : Option Active
  /-- calls that have released the mutex, in this order -/
  completed : List (Nat × CacheCall × Res (Str × Bool))
  history : List CallEvent

def Conc.start (fs : FS) : Conc := ⟨fs, 0, [], none, [], []⟩

/-- One step of one of the threads; only calls with `Allowed` are made. -/
inductive ConcStep (env : CacheEnv) (Allowed : CacheCall → Prop) : Conc → Conc → Prop
  | invoke {s : Conc} {call : CacheCall} : Allowed call → ConcStep env Allowed s { s with
      next := s.next + 1, waiting := s.waiting ++ [(s.next, call)],
      history := s.history ++ [.invoke s.next call] }
  /-- any of the waiting calls gets the mutex -/
  | lock {s : Conc} {id : Nat} {call : CacheCall} {w1 w2 : List (Nat × CacheCall)} : s.active = none →
      s.waiting = w1 ++ (id, call) :: w2 →
      ConcStep env Allowed s { s with
        waiting := w1 ++ w2, active := some ⟨id, call, (call.run env s.fs).log, call.run env s.fs⟩ }
  /-- the next operation of the call that holds the mutex -/
  | operate {s : Conc} {a : Active} {f : FS} {rest : List FS} : s.active = some a → a.rest = f :: rest →
      ConcStep env Allowed s { s with fs := f, active := some { a with rest := rest } }
  | unlock {s : Conc} {a : Active} : s.active = some a → a.rest = [] →
      ConcStep env Allowed s { s with
        fs := a.out.fs, active := none, completed := s.completed ++ [(a.id, a.call, a.out.res)] }
  /-- some time after releasing the mutex the function returns -/
  | respond {s : Conc} {id : Nat} {call : CacheCall} {r : Res (Str × Bool)} : (id, call, r) ∈ s.completed →
      ConcStep env Allowed s { s with history := s.history ++ [.respond id r] }
  /-- a file is read without the mutex -/
  | read {s : Conc} {path : Str} :
      ConcStep env Allowed s { s with history := s.history ++ [.read path ((s.fs.get path).map File.content)] }

inductive ConcRun (env : CacheEnv) (Allowed : CacheCall → Prop) : Conc → Conc → Prop
  | refl (s : Conc) : ConcRun env Allowed s s
  | step {s t u : Conc} : ConcRun env Allowed s t → ConcStep env Allowed t u → ConcRun env Allowed s u

end Verif.Model
