import Lean.Elab.Command

/-!
# Byte strings and results of Go code

A Go `string` is an immutable sequence of bytes.  The model therefore uses lists of bytes; every
slicing or length computation of the code is exact, also for text outside ASCII and for invalid UTF-8.
-/

namespace Verif

/-- A Go byte. -/
abbrev Byte := UInt8

/-- A Go `string`: a sequence of bytes. -/
abbrev Str := List UInt8

/-- `b!"text"` is the list of the UTF-8 bytes of the literal, i.e. what a Go string literal denotes. -/
syntax:max "b!" str : term

macro_rules
  | `(b! $s:str) => do
    let bs := s.getString.toUTF8.toList
    let es ← bs.toArray.mapM fun b => `(($(Lean.quote b.toNat) : UInt8))
    `(([$es,*] : List UInt8))

/-- Outcome of a Go function: a value, a returned `error`, a run time panic (index or slice out of
range, nil dereference) or a deliberate program exit (`sigolo.Fatal…`, `Requiref`). -/
inductive Res (α : Type u) where
  | ok (a : α)
  | err
  | panic
  | fatal
  deriving DecidableEq, Repr

namespace Res

/-- Sequencing: everything except a value aborts the function. -/
protected def bind {α : Type u} {β : Type v} (r : Res α) (f : α → Res β) : Res β :=
  match r with
  | ok a => f a
  | err => err
  | panic => panic
  | fatal => fatal

instance : Monad Res where
  pure := ok
  bind := Res.bind

@[simp] theorem bind_ok {α β : Type u} (a : α) (f : α → Res β) : (Res.ok a >>= f) = f a := rfl
@[simp] theorem bind_err {α β : Type u} (f : α → Res β) : ((Res.err : Res α) >>= f) = Res.err := rfl
@[simp] theorem bind_panic {α β : Type u} (f : α → Res β) : ((Res.panic : Res α) >>= f) = Res.panic := rfl
@[simp] theorem bind_fatal {α β : Type u} (f : α → Res β) : ((Res.fatal : Res α) >>= f) = Res.fatal := rfl
@[simp] theorem pure_eq {α : Type u} (a : α) : (pure a : Res α) = Res.ok a := rfl

/-- The function returned normally. -/
def isOk {α : Type u} : Res α → Bool
  | ok _ => true
  | _ => false

end Res

/-- Go slice expression `s[i:j]` with run time bounds check. -/
def slice (s : List α) (i j : Int) : Res (List α) :=
  if 0 ≤ i ∧ i ≤ j ∧ j ≤ s.length then .ok ((s.take j.toNat).drop i.toNat) else .panic

/-- Go index expression `s[i]` with run time bounds check. -/
def index (s : List α) (i : Int) : Res α :=
  if 0 ≤ i then
    match s[i.toNat]? with
    | some a => .ok a
    | none => .panic
  else .panic

end Verif
