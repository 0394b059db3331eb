import Verif.Lemmas.TokMonad
import Verif.Lemmas.Tokens

/-!
# Computations that end with enough steps
-/

namespace Verif.Model

/-- From the state `s`, the computation returns `a` in the state `s'` for all sufficiently large numbers of steps. -/
def Ends {α : Type} (f : Nat → TokM α) (s : TokState) (a : α) (s' : TokState) : Prop :=
  ∃ k, ∀ n, k ≤ n → f n s = some (.ok (a, s'))

theorem Ends.pure {α : Type} (a : α) (s : TokState) : Ends (fun _ => (Pure.pure a : TokM α)) s a s := ⟨0, fun _ _ => rfl⟩

theorem Ends.bind {α β : Type} {f : Nat → TokM α} {g : Nat → α → TokM β} {s s' s'' : TokState} {a : α} {b : β}
    (h : Ends f s a s') (h' : Ends (fun n => g n a) s' b s'') : Ends (fun n => f n >>= g n) s b s'' := by
  obtain ⟨k, h⟩ := h
  obtain ⟨k', h'⟩ := h'
  refine ⟨max k k', fun n hn => ?_⟩
  show (f n >>= g n) s = _
  rw [TokM.bind_eq, h n (by omega)]
  exact h' n (by omega)

theorem Ends.congr {α : Type} {f g : Nat → TokM α} {s s' : TokState} {a : α} (h : ∃ k, ∀ n, k ≤ n → f n = g n)
    (hg : Ends g s a s') : Ends f s a s' := by
  obtain ⟨k, h⟩ := h
  obtain ⟨k', hg⟩ := hg
  refine ⟨max k k', fun n hn => ?_⟩
  rw [h n (by omega)]
  exact hg n (by omega)

/-- A step that changes nothing. -/
theorem Ends.noop {α : Type} {f : Nat → TokM α} {a : α} (s : TokState) (h : ∃ k, ∀ n, k ≤ n → f n = Pure.pure a) : Ends f s a s :=
  Ends.congr h (Ends.pure a s)

theorem Ends.growing {α : Type} {f : Nat → TokM α} {s s' : TokState} {a : α} (h : Ends f s a s') (hg : ∀ n, Growing (f n)) :
    Grows s s' := by
  obtain ⟨k, h⟩ := h
  exact hg k s a s' (h k (Nat.le_refl k))

end Verif.Model
