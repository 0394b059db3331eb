import Verif.Model.Tokens

/-! The laws of the monad of the tokenizer. -/

namespace Verif.Model

instance : LawfulMonad TokM := LawfulMonad.mk'
  (id_map := by
    intro α x
    funext s
    show (match x s with
      | none => none
      | some (.ok (a, s')) => some (.ok (id a, s'))
      | some .err => some .err
      | some .panic => some .panic
      | some .fatal => some .fatal) = x s
    split <;> simp_all)
  (pure_bind := fun _ _ => rfl)
  (bind_assoc := by
    intro α β γ x f g
    funext s
    show (match (match x s with
      | none => none
      | some (.ok (a, s')) => f a s'
      | some .err => some .err
      | some .panic => some .panic
      | some .fatal => some .fatal) with
      | none => none
      | some (.ok (a, s')) => g a s'
      | some .err => some .err
      | some .panic => some .panic
      | some .fatal => some .fatal) =
      (match x s with
      | none => none
      | some (.ok (a, s')) => (f a >>= g) s'
      | some .err => some .err
      | some .panic => some .panic
      | some .fatal => some .fatal)
    cases x s with
    | none => rfl
    | some r => cases r <;> rfl)

end Verif.Model
