import Verif.Lemmas.Sanitize

/-! # C10, C11: sanitising of file names -/

namespace Verif.Props

open Verif.Model Verif.Spec Verif.Lemmas

/-- **C10** (safe): a sanitised name contains none of the forbidden characters. -/
theorem C10_sanitize_no_forbidden (name : Str) : ∀ c ∈ sanitizeFilename name, c ∉ forbidden :=
  fun c h => sanitize_no_forbidden name c h

/-- **C10** (lossless): percent-decoding a sanitised name gives the original name back. -/
theorem C10_sanitize_decodes (name : Str) : percentDecode (sanitizeFilename name) = name :=
  percentDecode_sanitize name

/-- **C10** (lossless): different names stay different. -/
theorem C10_sanitize_injective {a b : Str} (h : sanitizeFilename a = sanitizeFilename b) : a = b := by
  rw [← percentDecode_sanitize a, h, percentDecode_sanitize]

/-- **C10** (unchanged): names without special characters keep their spelling. -/
theorem C10_sanitize_plain (name : Str) (h : ∀ c ∈ name, c ≠ 0x25 ∧ c ∉ forbidden) :
    sanitizeFilename name = name := by
  rw [sanitize_eq_flatMap]
  induction name with
  | nil => rfl
  | cons x t ih =>
    obtain ⟨hx, hf⟩ := h x (by simp)
    simp only [forbidden, List.mem_cons, List.not_mem_nil, or_false, not_or] at hf
    obtain ⟨h2, h3, h4, h5, h6, h7, h8, h9, h10⟩ := hf
    rw [List.flatMap_cons, ih fun c hc => h c (List.mem_cons_of_mem _ hc)]
    simp only [encodeByte, hx, h2, h3, h4, h5, h6, h7, h8, h9, h10, if_false, List.singleton_append]

/-- **C10** (accepted): a sanitised name passes the check that guards every file operation. -/
theorem C10_sanitize_accepted (name : Str) : isSanitized (sanitizeFilename name) = true :=
  isSanitized_sanitize name

example : sanitizeFilename b!"AC/DC: 100%?" = b!"AC%2FDC%3A 100%25%3F" := by decide
example : percentDecode b!"AC%2FDC%3A 100%25%3F" = b!"AC/DC: 100%?" := by decide

/-- **C11**, part that holds: a path accepted by the check has no forbidden character except the
path separators. -/
theorem C11_check_rejects_forbidden_partial (path : Str) (h : isSanitized path = true) :
    ∀ c ∈ path, c ∈ forbidden → c = 0x2F := by
  intro c hc hf
  by_contra hne
  have hj : Go.join [0x2F] (Go.split path [0x2F]) = path := Go.join_split_self path (by simp)
  have hmem : ∃ p ∈ Go.split path [0x2F], c ∈ p := by
    rw [← hj] at hc
    clear hj h
    generalize Go.split path [0x2F] = l at hc ⊢
    induction l with
    | nil => simp [Go.join] at hc
    | cons p ps ih =>
      cases ps with
      | nil => exact ⟨p, by simp, by simpa [Go.join] using hc⟩
      | cons q r =>
        simp only [Go.join, List.mem_append, List.mem_singleton] at hc
        rcases hc with (hc | hc) | hc
        · exact ⟨p, by simp, hc⟩
        · exact absurd hc hne
        · obtain ⟨p', hp', hc'⟩ := ih hc
          exact ⟨p', List.mem_cons_of_mem _ hp', hc'⟩
  obtain ⟨p, hp, hcp⟩ := hmem
  exact no_forbidden_of_isSanitizedPart (List.all_eq_true.mp h p hp) c hf hcp

example : isSanitized b!"images/AC%2FDC" = true ∧ isSanitized b!"images/AC:DC" = false := by decide

/-- **C11**, part that fails: the check accepts a path with a percent sign that does not start one of
the ten escape sequences (the first byte of `%%253C`). -/
theorem C11_stray_percent_accepted :
    ¬ ∀ path : Str, isSanitized path = true →
      ∀ a b c t, path = a ++ 0x25 :: b :: c :: t →
        [0x25, b, c] ∈ [b!"%25", b!"%3C", b!"%3E", b!"%3A", b!"%22", b!"%2F", b!"%5C", b!"%7C",
          b!"%3F", b!"%2A"] := by
  intro h
  have := h b!"%%253C" (by decide) [] _ _ _ rfl
  revert this; decide

end Verif.Props
