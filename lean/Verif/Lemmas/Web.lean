import Verif.Model.Web

/-! Execution rules for `Web`. -/

namespace Verif.Lemmas

open Verif.Model

variable {α β : Type} {m : Web α} {f : α → Web β} {e : WebEnv} {w w' : World}

theorem web_bind_ok {a : α} (h : m e w = (.ok a, w')) : (m >>= f) e w = f a e w' := by
  show Web.bind m f e w = _
  unfold Web.bind; rw [h]

theorem web_bind_err (h : m e w = (.err, w')) : (m >>= f) e w = (.err, w') := by
  show Web.bind m f e w = _
  unfold Web.bind; rw [h]

theorem web_bind_panic (h : m e w = (.panic, w')) : (m >>= f) e w = (.panic, w') := by
  show Web.bind m f e w = _
  unfold Web.bind; rw [h]

theorem web_bind_fatal (h : m e w = (.fatal, w')) : (m >>= f) e w = (.fatal, w') := by
  show Web.bind m f e w = _
  unfold Web.bind; rw [h]

theorem web_bind_waiting (h : m e w = (.waiting, w')) : (m >>= f) e w = (.waiting, w') := by
  show Web.bind m f e w = _
  unfold Web.bind; rw [h]

theorem web_pure (a : α) : (pure a : Web α) e w = (.ok a, w) := rfl

/-- A composition succeeds only if both parts do. -/
theorem web_bind_inv {b : β} (h : (m >>= f) e w = (.ok b, w')) :
    ∃ a w1, m e w = (.ok a, w1) ∧ f a e w1 = (.ok b, w') := by
  rcases hm : m e w with ⟨o, w1⟩
  cases o with
  | ok a => exact ⟨a, w1, rfl, by rw [← h, web_bind_ok hm]⟩
  | err => rw [web_bind_err hm] at h; cases h
  | panic => rw [web_bind_panic hm] at h; cases h
  | fatal => rw [web_bind_fatal hm] at h; cases h
  | waiting => rw [web_bind_waiting hm] at h; cases h

theorem web_attempt_ok {a : α} (h : m e w = (.ok a, w')) : Web.attempt m e w = (.ok (some a), w') := by
  unfold Web.attempt; rw [h]

theorem web_attempt_err (h : m e w = (.err, w')) : Web.attempt m e w = (.ok none, w') := by
  unfold Web.attempt; rw [h]

end Verif.Lemmas
