import Mathlib.Data.List.Forall2
import Verif.Lemmas.Nowiki
import Verif.Model.Cleaner

/-!
# nowiki (C38)
-/

namespace Verif.Props
open Verif.Go Verif.Model Verif.Spec
open scoped List

/-- The keys of the elements. -/
def nowikiKeys (n : Nat) : List NowikiPart → List Str
  | [] => []
  | _ :: ps => tokenKey b!"HEADINNOWIKI" n :: nowikiKeys (n + 1) ps

theorem nowikiOut_eq (parts : List NowikiPart) (last : Str) (n : Nat) :
    nowikiOut n parts last = nowikiFilled parts (nowikiKeys n parts) last := by
  induction parts generalizing n with
  | nil => rfl
  | cons p ps ih => simp only [nowikiOut, nowikiKeys, nowikiFilled, ih]

theorem nowikiTokens_found (parts : List NowikiPart) (n : Nat) (m : List (Str × Token)) :
    List.Forall₂ (fun p k => lookupToken (nowikiTokens n parts ++ m) k = some (.nowiki p.inner)) parts (nowikiKeys n parts) := by
  induction parts generalizing n m with
  | nil => exact .nil
  | cons p ps ih =>
    simp only [nowikiTokens, nowikiKeys, List.append_assoc, List.cons_append, List.nil_append]
    refine .cons ?_ (ih (n + 1) _)
    have hnone : ∀ (ps : List NowikiPart) (n' : Nat), n < n' → ∀ e ∈ nowikiTokens n' ps, e.1 ≠ tokenKey b!"HEADINNOWIKI" n := by
      intro ps
      induction ps with
      | nil => intro n' _ e he; exact absurd he (by simp [nowikiTokens])
      | cons q qs ih =>
        intro n' hn e he
        simp only [nowikiTokens, List.mem_append, List.mem_singleton] at he
        rcases he with he | rfl
        · exact ih (n' + 1) (by omega) e he
        · exact fun h => absurd (tokenKey_number h) (by omega)
    unfold lookupToken
    rw [List.find?_append, List.find?_eq_none.mpr (fun e he => by simpa using hnone ps (n + 1) (by omega) e he)]
    simp

theorem nowikiKeys_nodup (parts : List NowikiPart) (n : Nat) : (nowikiKeys n parts).Nodup ∧
    ∀ k ∈ nowikiKeys n parts, ∃ m, n ≤ m ∧ k = tokenKey b!"HEADINNOWIKI" m := by
  induction parts generalizing n with
  | nil => exact ⟨List.nodup_nil, by simp [nowikiKeys]⟩
  | cons p ps ih =>
    obtain ⟨h1, h2⟩ := ih (n + 1)
    refine ⟨List.nodup_cons.mpr ⟨fun h => ?_, h1⟩, fun k hk => ?_⟩
    · obtain ⟨m, hm, he⟩ := h2 _ h
      exact absurd (tokenKey_number he) (by omega)
    · rcases List.mem_cons.mp hk with rfl | hk
      · exact ⟨n, Nat.le_refl _, rfl⟩
      · obtain ⟨m, hm, he⟩ := h2 _ hk
        exact ⟨m, by omega, he⟩

/-- **C38** for all texts in which every nowiki tag is closed: the parser finishes, keeps all text between the elements,
and every element is replaced by a key of its own that stands for exactly its content. What is missing: unclosed tags,
for which the parser crashes (`C38_unclosed_tag_crashes`); and the steps before the parser are not aware of nowiki
(`C38_comment_in_nowiki_is_removed`). -/
theorem C38_content_verbatim_partial (parts : List NowikiPart) (last : Str) (hp : ∀ p ∈ parts, p.WellFormed)
    (hl : ¬ b!"<nowiki>" <:+: lowered last) (s : TokState) :
    ∃ (keys : List Str) (s' : TokState) (steps : Nat), keys.Nodup ∧
      List.Forall₂ (fun p k => lookupToken s'.tokenMap k = some (.nowiki p.inner)) parts keys ∧
      ∀ fuel, steps ≤ fuel →
        parseNowiki fuel (nowikiText parts last) s = some (.ok (nowikiFilled parts keys last, s')) := by
  obtain ⟨N, hN⟩ := nowiki_parts parts last hp hl [] s
  refine ⟨nowikiKeys s.counter parts,
    ⟨nowikiTokens s.counter parts ++ s.tokenMap, s.counter + parts.length, s.images⟩, N, (nowikiKeys_nodup parts _).1, nowikiTokens_found parts s.counter _,
    fun fuel hf => ?_⟩
  have := hN fuel hf
  rw [nowikiOut_eq] at this
  exact this

/-- A text with two elements, wiki syntax in the contents and different spellings of the tags. -/
def nowikiExample : List NowikiPart :=
  [⟨b!"a ", b!"<nowiki>", b!"[[b]] ''c''", b!"</nowiki>"⟩, ⟨b!" < d ", b!"<NoWiki>", b!"", b!"</NOWIKI>"⟩]

example : (∀ p ∈ nowikiExample, p.WellFormed) ∧ ¬ b!"<nowiki>" <:+: lowered b!" e" := by
  constructor
  · intro p hp
    simp only [nowikiExample, List.mem_cons, List.not_mem_nil, or_false] at hp
    rcases hp with rfl | rfl
    all_goals
      constructor
      · decide
      · decide
      all_goals
        rw [← contains_eq_false_iff]
        decide
  · rw [← contains_eq_false_iff]; decide

/-- **C38** is false for unclosed tags: the program crashes for every text in which an opening tag has no closing tag
and is followed by at least two characters. -/
theorem C38_unclosed_tag_crashes (text rest : Str) (h1 : ¬ b!"<nowiki>" <:+: lowered text)
    (h2 : ¬ b!"</nowiki>" <:+: lowered rest) (h3 : 2 ≤ rest.length) (s : TokState) (fuel : Nat)
    (hf : text.length < fuel) : parseNowiki fuel (text ++ b!"<nowiki>" ++ rest) s = some .panic := by
  obtain ⟨f, rfl⟩ := Nat.exists_eq_add_of_lt hf
  unfold parseNowiki
  have h := nowiki_skip (f + 1) [] text (b!"<nowiki>" ++ rest) s (by simp; omega) (by
    intro t' e1 e2 e3
    rw [lowered_append, lowered_append] at e3
    rw [show lowered b!"<nowiki>" = b!"<nowiki>" by decide] at e3
    have := tag_prefix (c := 0x3C) (by decide) (by simpa [lowered] using e2) e3
    exact h1 (this.isInfix.trans (suffix_lowered e1).isInfix))
  simp only [List.nil_append, List.length_nil] at h
  rw [List.append_assoc, show text.length + f + 1 = f + 1 + text.length by omega, h]
  rw [nowikiLoop, if_pos (by simp; omega), List.drop_left, if_pos]
  · have : findCloseIgnoreCase (text ++ (b!"<nowiki>" ++ rest)) (text.length + 8) b!"<nowiki>" b!"</nowiki>" = none := by
      unfold findCloseIgnoreCase findCloseWith
      rw [← List.append_assoc, show text.length + 8 = (text ++ b!"<nowiki>").length by simp, List.drop_left]
      exact closeLoop_none _ _ (by decide) (by decide) h2
    rw [this]
    rfl
  · have := take_same_iff (s := b!"<nowiki>" ++ rest) (tag := b!"<nowiki>") (by decide)
    rw [show (8 : Nat) = (b!"<nowiki>" : Str).length from rfl, this, lowered_append]
    exact List.prefix_append _ _

/-- **C38** is false for comments: the step that removes comments, which comes before the parser, also removes the
content of a nowiki element that looks like a comment. -/
theorem C38_comment_in_nowiki_is_removed :
    removeComments b!"a <nowiki><!-- b --></nowiki> c" = b!"a <nowiki></nowiki> c" := by
  decide +kernel

end Verif.Props
