import Verif.Lemmas.HaltTables

/-!
# Termination of the tokenizer
-/

namespace Verif.Lemmas
open Verif.Go Verif.Model Verif.Spec
open scoped List

variable {rec : Nat → Rec} {env : ParserEnv}

/-- What becomes smaller in each iteration: the markup, then the number of brackets that are not closed, then the number of
empty lines. -/
def full (s : Str) : (Nat ×ₗ Nat) ×ₗ (Nat ×ₗ Nat) := toLex (size s, toLex (un s, emptyLines s))

theorem full_lt {a b : Str} : full a < full b ↔ size a < size b ∨ size a = size b ∧ (un a < un b ∨ un a = un b ∧ emptyLines a < emptyLines b) := by
  rw [full, full, Prod.Lex.toLex_lt_toLex]
  simp only [Prod.Lex.toLex_lt_toLex]

/-- The text is unchanged or has become smaller. -/
def Down (a b : Str) : Prop := b = a ∨ full b < full a

theorem Down.trans {a b c : Str} (h : Down a b) (h' : Down b c) : Down a c := by
  rcases h with rfl | h
  · exact h'
  · rcases h' with rfl | h'
    · exact .inr h
    · exact .inr (h'.trans h)

theorem Step.down {a b : Str} (h : Step a b) : Down a b := h.imp id fun h => full_lt.mpr (.inl h)

theorem Down.size_le {a b : Str} (h : Down a b) : size b ≤ size a := by
  rcases h with rfl | h
  · exact le_refl _
  · rcases full_lt.mp h with h | h
    · exact h.le
    · exact h.1.le

theorem tokenizePass_halts (hu : CreatesNoMarkup env.upperFirst) (content : Str) (hrec : RecHalts rec (size content)) :
    Halts (fun n m => tokenizePass env (rec n) m content) (Down content) := by
  unfold tokenizePass
  refine Halts.bind (parseNowiki_halts content) fun c1 h1 => ?_
  refine Halts.bind (parseBoldAndItalic_halts c1) fun c2 h2 => ?_
  have h2 := h1.trans h2
  refine Halts.bind (parseHeadings_halts hrec c2 h2.size_le) fun c3 h3 => ?_
  have h3 := h2.trans h3
  refine Halts.bind (parseReferences_halts hrec c3 h3.size_le) fun c4 h4 => ?_
  have h4 := h3.trans h4
  refine Halts.bind (parseInternalLinks_halts hrec env c4 h4.size_le) fun c5 h5 => ?_
  have h5 := h4.trans h5
  refine Halts.bind (parseGalleries_halts hu c5) fun c6 h6 => ?_
  have h6 := h5.trans h6
  refine Halts.bind (parseImageMaps_halts hu c6) fun c7 h7 => ?_
  have h7 := h6.trans h7
  refine Halts.bind (parseImages_halts hu hrec c7 h7.size_le) fun c8 h8 => ?_
  have h8 := h7.trans h8
  refine Halts.bind (parseExternalLinks_halts hrec env c8 h8.size_le) fun c9 h9 => ?_
  have h9 : Down content c9 := by
    refine h8.down.trans ?_
    rcases h9 with h9 | ⟨h9, h9'⟩
    · exact h9.down
    · exact .inr (full_lt.mpr (.inr ⟨h9, .inl h9'⟩))
  refine Halts.bind (parseMath_halts c9) fun c10 h10 => ?_
  have h10 := h9.trans h10.down
  refine Halts.bind (parseLists_halts hrec c10 h10.size_le) fun c11 h11 => ?_
  have h11 := h10.trans h11.down
  refine Halts.bind (parseTables_halts hrec c11 h11.size_le) fun c12 h12 => Halts.pure ?_
  have h12 := h11.trans h12.down
  refine h12.trans ?_
  rcases parseParagraphs_spec c12 with h | ⟨h1, h2, h3⟩
  · exact .inl h
  · exact .inr (full_lt.mpr (.inr ⟨h1, .inr ⟨h2, h3⟩⟩))

/-- Both numbers of steps may be the same. -/
theorem Halts.diag {α : Type} {f : Nat → Nat → TokM α} {P : α → Prop} (h : Halts f P) : Halts (fun n _ => f n n) P := by
  intro s
  obtain ⟨N, r, h1, h2⟩ := h s
  exact ⟨N, r, fun n _ hn _ => h1 n n hn hn, h2⟩

theorem Halts.succ_left {α : Type} {f : Nat → Nat → TokM α} {P : α → Prop} (h : Halts (fun n m => f (n + 1) m) P) : Halts f P := by
  intro s
  obtain ⟨N, r, h1, h2⟩ := h s
  refine ⟨N + 1, r, fun n m hn hm => ?_, h2⟩
  obtain ⟨n, rfl⟩ := Nat.exists_eq_add_of_le' (show 1 ≤ n by omega)
  exact h1 n m (by omega) (by omega)

/-- **The tokenizer ends.** -/
theorem tokenizeContent_halts (hu : CreatesNoMarkup env.upperFirst) (content : Str) :
    Halts (fun n _ => tokenizeContent env n content) fun r => size r ≤ size content := by
  have hwf : WellFounded (fun a b : Str => full a < full b) := InvImage.wf full (wellFounded_lt)
  induction content using hwf.induction with
  | _ content ih =>
    refine Halts.succ_left ?_
    simp only [tokenizeContent]
    have hpass := (tokenizePass_halts (rec := tokenizeContent env) hu content fun t ht => ih t (full_lt.mpr (.inl ht))).diag
    refine Halts.bind hpass fun new hnew => ?_
    rcases hnew with rfl | hnew
    · simp only [if_true]
      exact Halts.pure (le_refl _)
    · refine Halts.ite (fun h => Halts.pure (by rw [h])) fun _ => ?_
      exact (ih new hnew).mono fun r hr => hr.trans (Down.size_le (.inr hnew))

end Verif.Lemmas
