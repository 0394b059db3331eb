import Verif.Model.CleanLinks
import Verif.Spec.WikiLinks
import Verif.Lemmas.Cut
import Verif.Lemmas.CloseToken

/-! # C41: unwanted links -/

namespace Verif.Props
open Verif.Go Verif.Model Verif.Spec Verif.Lemmas
open scoped List

theorem dropLast_split_append (a b : Str) (c : Byte) :
    (split a [c]).dropLast <+: (split (a ++ b) [c]).dropLast ∧
    (c ∉ b → (split (a ++ b) [c]).dropLast = (split a [c]).dropLast) := by
  induction a with
  | nil =>
    refine ⟨by simp, fun h => ?_⟩
    rw [List.nil_append, split_singleton_of_not_mem h]; simp
  | cons x a ih =>
    by_cases hx : x = c
    · subst hx
      have h1 := split_singleton_append (c := x) (a := []) a (by simp)
      have h2 := split_singleton_append (c := x) (a := []) (a ++ b) (by simp)
      simp only [List.nil_append] at h1 h2
      simp only [List.cons_append]
      rw [h1, h2, List.dropLast_cons_of_ne_nil (split_ne_nil _ (by simp)),
        List.dropLast_cons_of_ne_nil (split_ne_nil _ (by simp))]
      exact ⟨by rw [List.prefix_cons_inj]; exact ih.1, fun h => by rw [ih.2 h]⟩
    · have hp : ∀ t : Str, ¬ [c] <+: x :: t := by
        intro t h; rw [List.cons_prefix_cons] at h; exact hx h.1.symm
      simp only [List.cons_append]
      rw [split_cons_of_not_prefix (hp _), split_cons_of_not_prefix (hp _)]
      rcases hs : split a [c] with - | ⟨p, l⟩
      · exact absurd hs (split_ne_nil _ (by simp))
      rcases hs2 : split (a ++ b) [c] with - | ⟨p2, l2⟩
      · exact absurd hs2 (split_ne_nil _ (by simp))
      rw [hs, hs2] at ih
      simp only [consHead]
      cases l with
      | nil =>
        refine ⟨by simp, fun h => ?_⟩
        have := ih.2 h
        cases l2 with
        | nil => rfl
        | cons => simp at this
      | cons q l =>
        cases l2 with
        | nil => simp at ih
        | cons q2 l2 =>
          simp only [List.dropLast_cons_cons] at ih ⊢
          rw [List.cons_prefix_cons] at ih ⊢
          refine ⟨⟨by rw [ih.1.1], ih.1.2⟩, fun h => ?_⟩
          have := ih.2 h
          simp only [List.cons.injEq] at this ⊢
          exact ⟨⟨trivial, this.1⟩, this.2⟩

/-- Links to articles and allowed links have no colon in their text. -/
def PlainLabel (r : LinkRules) (inner : Str) : Prop :=
  0x3A ∈ linkLabel inner → IsFile r (linkAim inner) ∨ b!":" <+: linkAim inner ∨ Unwanted r inner

theorem target_label (inner : Str) :
    (0x7C ∉ inner ∧ linkAim inner = inner ∧ linkLabel inner = []) ∨
    inner = linkAim inner ++ b!"|" ++ linkLabel inner := by
  unfold linkAim linkLabel
  cases h : cut b!"|" inner with
  | none =>
    left
    have := (cut_eq_none (by simp)).mp h
    exact ⟨fun hm => this (contains_iff.mp (contains_singleton.mpr hm)), rfl, rfl⟩
  | some x => exact .inr (cut_eq_some h)

theorem isUnwantedLink_iff (env : ParserEnv) (inner : Str) (h : PlainLabel (linkRules env) inner) :
    isUnwantedLink env inner = true ↔ Unwanted (linkRules env) inner := by
  -- prefixes of the whole content and of the target
  have hpre : linkPrefixes (linkAim inner) <+: (split inner b!":").dropLast ∧
      (0x3A ∉ linkLabel inner → (split inner b!":").dropLast = linkPrefixes (linkAim inner)) := by
    unfold linkPrefixes
    rcases target_label inner with ⟨-, h2, -⟩ | h2
    · rw [h2]; simp
    · have := dropLast_split_append (linkAim inner) (b!"|" ++ linkLabel inner) 0x3A
      rw [← List.append_assoc, ← h2] at this
      refine ⟨this.1, fun h3 => this.2 ?_⟩
      simpa using h3
  have hcolon : b!":" <+: inner ↔ b!":" <+: linkAim inner := by
    rcases target_label inner with ⟨-, h2, -⟩ | h2
    · rw [h2]
    · constructor
      · intro h3
        rw [h2] at h3
        cases ht : linkAim inner with
        | nil => rw [ht] at h3; simp [List.cons_prefix_cons] at h3
        | cons x t => rw [ht] at h3; simp only [List.cons_append, List.cons_prefix_cons] at h3 ⊢; exact ⟨h3.1, by simp⟩
      · intro h3
        rw [h2, List.append_assoc]
        exact h3.trans (List.prefix_append _ _)
  have hunf : isUnwantedLink env inner = true ↔
      (¬ ∃ p, (split inner b!":").dropLast.head? = some p ∧ env.lower p ∈ env.config.list .filePrefixes) ∧
      ¬ b!":" <+: inner ∧ ∃ p ∈ (split inner b!":").dropLast, env.lower p ≠ [] ∧
        (env.lower p ∈ env.config.list .categoryPrefixes ∨
          (env.lower p ∉ env.config.list .filePrefixes ∧ env.lower p ∉ env.config.list .allowedLinkPrefixes)) := by
    unfold isUnwantedLink
    rw [← hasPrefix_iff]
    cases hs : (split inner b!":").dropLast with
    | nil => simp
    | cons p l =>
      simp only [List.head?_cons, Option.some.injEq, exists_eq_left', decide_eq_true_eq]
      by_cases hf : env.lower p ∈ env.config.list .filePrefixes
      · simp [hf]
      · rw [if_neg hf]
        by_cases hc : hasPrefix inner b!":" = true
        · rw [if_pos hc]; simp [hc]
        · rw [if_neg hc]
          simp only [List.any_eq_true, Bool.and_eq_true, Bool.or_eq_true, Bool.not_eq_true', decide_eq_true_eq,
            decide_eq_false_iff_not, hf, hc, not_false_eq_true, true_and]
          constructor
          · rintro ⟨x, h1, h2, h3⟩; exact ⟨by simp, x, h1, h2, h3.symm⟩
          · rintro ⟨-, x, h1, h2, h3⟩; exact ⟨x, h1, h2, h3.symm⟩
  have hhead : linkPrefixes (linkAim inner) ≠ [] →
      (split inner b!":").dropLast.head? = (linkPrefixes (linkAim inner)).head? := by
    obtain ⟨s, hs⟩ := hpre.1
    rw [← hs]
    intro h0
    cases hl : linkPrefixes (linkAim inner) with
    | nil => exact absurd hl h0
    | cons => rfl
  rw [hunf, hcolon]
  by_cases hl : 0x3A ∈ linkLabel inner
  · rcases h hl with hf | hc | hu
    · constructor
      · rintro ⟨h1, -⟩
        exfalso
        obtain ⟨p, h3, h4⟩ := hf
        refine h1 ⟨p, ?_, h4⟩
        rw [hhead (by intro h; rw [h] at h3; cases h3), h3]
      · intro h1; exact absurd hf h1.1
    · constructor
      · rintro ⟨-, h1, -⟩; exact absurd hc h1
      · rintro ⟨-, h1, -⟩; exact absurd hc h1
    · constructor
      · intro; exact hu
      · rintro ⟨h1, h2, p, h3, h4⟩
        refine ⟨?_, h2, p, hpre.1.subset h3, h4⟩
        rw [hhead (by intro h; rw [h] at h3; cases h3)]
        exact h1
  · rw [hpre.2 hl]; rfl

section loops
open LinkText

theorem close_open (t : Str) (i k : Nat) :
    closeLoop false b!"[" b!"]" (0x5B :: t) 0 i k = closeLoop false b!"[" b!"]" t 0 (i + 1) (k + 1) := by
  rw [closeLoop, if_pos]
  · rfl
  · simp [sameToken, cursorText]

theorem close_close (t : Str) (i k : Nat) :
    closeLoop false b!"[" b!"]" (0x5D :: t) 0 i k =
      if k = 0 then some i else closeLoop false b!"[" b!"]" t 0 (i + 1) (k - 1) := by
  rw [closeLoop, if_neg, if_pos]
  · rfl
  · simp [sameToken, cursorText]
  · simp [sameToken, cursorText]

theorem close_other (t : Str) (i k : Nat) {c : Byte} (h1 : c ≠ 0x5B) (h2 : c ≠ 0x5D) :
    closeLoop false b!"[" b!"]" (c :: t) 0 i k = closeLoop false b!"[" b!"]" t 0 (i + 1) k := by
  rw [closeLoop, if_neg, if_neg]
  · simp [sameToken, cursorText, h2]
  · simp [sameToken, cursorText, h1]

theorem close_text (d : LinkText) (h : d.WellFormed) : ∀ (t : Str) (i k : Nat),
    closeLoop false b!"[" b!"]" (d.text ++ t) 0 i k = closeLoop false b!"[" b!"]" t 0 (i + d.text.length) k := by
  induction d with
  | nil => intro t i k; simp [text]
  | char c rest ih =>
    intro t i k
    simp only [text, List.cons_append, List.length_cons]
    rw [close_other _ _ _ h.1 h.2.1, ih h.2.2]
    congr 1; omega
  | bracket inner rest ih1 ih2 =>
    intro t i k
    simp only [text, List.cons_append, List.nil_append, List.append_assoc, List.length_append, List.length_cons]
    rw [close_open, ih1 h.2.1, close_close, if_neg (by omega), ih2 h.2.2]
    congr 1; omega
  | link inner rest ih1 ih2 =>
    intro t i k
    simp only [text, List.cons_append, List.nil_append, List.append_assoc, List.length_append, List.length_cons]
    rw [close_open, close_open, ih1 h.2.1, close_close, if_neg (by omega), close_close, if_neg (by omega), ih2 h.2.2]
    congr 1; omega

theorem linkLoop_skip (env : ParserEnv) (s : Str) (k : Nat) : linkLoop env s k = linkLoop env (s.drop k) 0 := by
  induction s generalizing k with
  | nil => cases k <;> rfl
  | cons c t ih =>
    cases k with
    | zero => rfl
    | succ k => rw [linkLoop, ih]; rfl

theorem linkLoop_short (env : ParserEnv) (s : Str) (h : s.length ≤ 2) : linkLoop env s 0 = .ok s := by
  cases s with
  | nil => rfl
  | cons c t => rw [linkLoop, if_pos h]

theorem linkLoop_char (env : ParserEnv) (c : Byte) (t : Str) (h : ¬ b!"[[" <+: c :: t) :
    linkLoop env (c :: t) 0 = (do let rest ← linkLoop env t 0; .ok (c :: rest)) := by
  rw [linkLoop]
  split
  · next h2 => rw [linkLoop_short env t (by simp at h2; omega)]; rfl
  · rw [if_neg (by rw [hasPrefix_iff]; exact h)]

theorem linkLoop_link (env : ParserEnv) (inner : LinkText) (t : Str) (hw : inner.WellFormed)
    (hb : inner.startsWithBracket = false) :
    linkLoop env (b!"[[" ++ inner.text ++ b!"]]" ++ t) 0 =
      if isUnwantedLink env inner.text then linkLoop env t 0
      else (do let rest ← linkLoop env (inner.text ++ b!"]]" ++ t) 0; .ok (b!"[[" ++ rest)) := by
  have hf : findClose (b!"[[" ++ inner.text ++ b!"]]" ++ t) 2 b!"[" b!"]" = some (2 + inner.text.length) := by
    unfold findClose findCloseWith
    rw [show (b!"[[" ++ inner.text ++ b!"]]" ++ t).drop 2 = inner.text ++ 0x5D :: (0x5D :: t) by simp,
      close_text inner hw, close_close, if_pos rfl]
  have hn : ¬ b!"[[" <+: 0x5B :: (inner.text ++ b!"]]" ++ t) := by
    rw [List.cons_prefix_cons]
    rintro ⟨-, h⟩
    cases inner with
    | nil => simp [text, List.cons_prefix_cons] at h
    | char c rest => simp only [text, List.cons_append, List.cons_prefix_cons] at h; exact hw.1 h.1.symm
    | bracket => cases hb
    | link => cases hb
  have e : b!"[[" ++ inner.text ++ b!"]]" ++ t = 0x5B :: (0x5B :: (inner.text ++ b!"]]" ++ t)) := by simp
  rw [e] at hf ⊢
  rw [linkLoop, if_neg (by simp), if_pos (by simp [hasPrefix]), hf]
  have htot : ((0x5B :: 0x5B :: (inner.text ++ b!"]]" ++ t)).take (2 + inner.text.length)).drop 2 = inner.text := by
    rw [Nat.add_comm]; simp
  simp only [htot]
  by_cases hu : isUnwantedLink env inner.text = true
  · rw [if_pos hu, if_pos hu, if_pos (by simp; omega), linkLoop_skip]
    congr 1
    rw [show 2 + inner.text.length + 1 = inner.text.length + 2 + 1 by omega, List.drop_succ_cons, List.append_assoc,
      List.drop_append]
    simp
  · rw [if_neg hu, if_neg hu, linkLoop_char env _ _ hn]
    cases linkLoop env (inner.text ++ b!"]]" ++ t) 0 <;> rfl

theorem linkLoop_text (env : ParserEnv) (unwanted : Str → Prop) [DecidablePred unwanted] (d : LinkText)
    (h : d.WellFormed) (ha : d.AllLinks fun inner => (isUnwantedLink env inner = true ↔ unwanted inner)) : ∀ t : Str,
    linkLoop env (d.text ++ t) 0 = (do let rest ← linkLoop env t 0; .ok ((d.without unwanted).text ++ rest)) := by
  induction d with
  | nil => intro t; simp only [text, without, List.nil_append]; cases linkLoop env t 0 <;> rfl
  | char c rest ih =>
    intro t
    simp only [text, without, List.cons_append]
    rw [linkLoop_char env _ _ (by rw [List.cons_prefix_cons]; exact fun h' => h.1 h'.1.symm), ih h.2.2 ha]
    cases linkLoop env t 0 <;> rfl
  | bracket inner rest ih1 ih2 =>
    intro t
    simp only [text, without, List.append_assoc, List.cons_append, List.nil_append]
    rw [linkLoop_char, ih1 h.2.1 ha.1, linkLoop_char, ih2 h.2.2 ha.2]
    · cases linkLoop env t 0 <;> rfl
    · simp [List.cons_prefix_cons]
    · rw [List.cons_prefix_cons]
      rintro ⟨-, h'⟩
      cases inner with
      | nil => simp [text, List.cons_prefix_cons] at h'
      | char c rest => simp only [text, List.cons_append, List.cons_prefix_cons] at h'; exact h.2.1.1 h'.1.symm
      | bracket => cases h.1
      | link => cases h.1
  | link inner rest ih1 ih2 =>
    intro t
    rw [show (link inner rest).text ++ t = b!"[[" ++ inner.text ++ b!"]]" ++ (rest.text ++ t) by simp [text],
      linkLoop_link env inner _ h.2.1 h.1]
    unfold without
    by_cases hu : unwanted inner.text
    · rw [if_pos (ha.1.mpr hu), if_pos hu, ih2 h.2.2 ha.2.2]
    · rw [if_neg (fun h' => hu (ha.1.mp h')), if_neg hu, List.append_assoc, ih1 h.2.1 ha.2.1]
      simp only [List.cons_append, List.nil_append]
      rw [linkLoop_char, linkLoop_char, ih2 h.2.2 ha.2.2]
      · simp only [text]
        cases linkLoop env t 0
        · simp
        all_goals rfl
      all_goals simp [List.cons_prefix_cons]

end loops

theorem allLinks_imp {p q : Str → Prop} (hpq : ∀ s, p s → q s) (d : LinkText) (h : d.AllLinks p) : d.AllLinks q := by
  induction d with
  | nil => trivial
  | char c rest ih => exact ih h
  | bracket inner rest ih1 ih2 => exact ⟨ih1 h.1, ih2 h.2⟩
  | link inner rest ih1 ih2 => exact ⟨hpq _ h.1, ih1 h.2.1, ih2 h.2.2⟩

/-- **C41** In a text with properly nested brackets exactly the unwanted links are removed, everything else stays as it
is, and there is no crash. Missing: the text of links to articles must not contain a colon (`C41_colon_in_label`), and
malformed links must not crash the program (`C41_unclosed_link_crashes`). -/
theorem C41_unwanted_links_removed_partial (env : ParserEnv) [DecidablePred (Unwanted (linkRules env))] (d : LinkText)
    (hw : d.WellFormed) (hl : d.AllLinks (PlainLabel (linkRules env))) :
    removeUnwantedInternalLinks env d.text = .ok (d.without (Unwanted (linkRules env))).text := by
  have := linkLoop_text env (Unwanted (linkRules env)) d hw
    (allLinks_imp (fun s hs => isUnwantedLink_iff env s hs) d hl) []
  simpa [removeUnwantedInternalLinks, linkLoop_short env [] (by simp)] using this

/-- **C41** Text without double brackets is never changed, whatever single brackets it has. -/
theorem C41_text_without_links (env : ParserEnv) (content : Str) (h : ¬ b!"[[" <:+: content) :
    removeUnwantedInternalLinks env content = .ok content := by
  unfold removeUnwantedInternalLinks
  induction content with
  | nil => rfl
  | cons c t ih =>
    rw [linkLoop_char env c t (fun h' => h h'.isInfix), ih (fun h' => h (h'.trans (List.suffix_cons c t).isInfix))]
    rfl

/-- Configuration for the examples: the default configuration, with lower case letters for ASCII. -/
def exampleEnv : ParserEnv := ⟨List.map lowerByte, id, defaultConfig ⟨b!"/c", false, false⟩⟩

/-- A text with an unwanted link, an allowed link, a file with an unwanted link in its caption, and a category. -/
example : removeUnwantedInternalLinks exampleEnv
      b!"a [[de:B]] [[doi:1|x]] [[File:c.png|[http://d e] [[Category:f]]g]] [[h|i]][[:Category:j]]" =
    .ok b!"a  [[doi:1|x]] [[File:c.png|[http://d e] g]] [[h|i]][[:Category:j]]" := by decide +kernel

open LinkText in
/-- The hypotheses of the theorem hold for such texts. -/
example : (char 0x61 (link (char 0x64 (char 0x3A (char 0x42 nil))) (link (char 0x68 (char 0x7C (char 0x69 nil))) nil))).WellFormed ∧
    (char 0x61 (link (char 0x64 (char 0x3A (char 0x42 nil))) (link (char 0x68 (char 0x7C (char 0x69 nil))) nil))).AllLinks
      (PlainLabel (linkRules exampleEnv)) ∧
    (char 0x61 (link (char 0x64 (char 0x3A (char 0x42 nil))) (link (char 0x68 (char 0x7C (char 0x69 nil))) nil))).text =
      b!"a[[d:B]][[h|i]]" := by
  refine ⟨by simp [WellFormed, startsWithBracket], ⟨?_, trivial, ?_, trivial, trivial⟩, rfl⟩
  · intro h; exact absurd h (by decide)
  · intro h; exact absurd h (by decide)

/-- **C41** fails: a link is removed because of a colon in its text. -/
theorem C41_colon_in_label :
    removeUnwantedInternalLinks exampleEnv b!"see [[Alien|Alien: the film]]" = .ok b!"see " ∧
    ¬ Unwanted (linkRules exampleEnv) b!"Alien|Alien: the film" := by
  refine ⟨by decide +kernel, ?_⟩
  rintro ⟨-, -, p, h, -⟩
  exact absurd h (by rw [show linkPrefixes (linkAim b!"Alien|Alien: the film") = [] by decide]; simp)

/-- **C41** fails for titles with a colon: every link to an article such as "Alien: Covenant" is removed with its text, since
everything in front of a colon counts as a prefix. -/
theorem C41_titles_with_colon_vanish (env : ParserEnv) (series title before after : Str)
    (hb : ∀ c ∈ before ++ after, c ∉ b!"[]") (hs : ∀ c ∈ series ++ title, c ∉ b!"[]|:") (hne : series ≠ []) (hn : env.lower series ≠ [])
    (hf : env.lower series ∉ env.config.list .filePrefixes) (ha : env.lower series ∉ env.config.list .allowedLinkPrefixes) :
    removeUnwantedInternalLinks env (before ++ b!"[[" ++ series ++ b!":" ++ title ++ b!"]]" ++ after) = .ok (before ++ after) := by
  classical
  -- characters in front of a text
  have chars : ∀ (t : Str) (d : LinkText), (∀ c ∈ t, c ∉ b!"[]") → ∃ e : LinkText, e.text = t ++ d.text ∧ (d.WellFormed → e.WellFormed) ∧
      (t ≠ [] → e.startsWithBracket = false) ∧ (∀ p, d.AllLinks p → e.AllLinks p) ∧
      (e.without (Unwanted (linkRules env))).text = t ++ (d.without (Unwanted (linkRules env))).text := by
    intro t d h
    induction t with
    | nil => exact ⟨d, rfl, id, fun h => absurd rfl h, fun _ h => h, rfl⟩
    | cons c t ih =>
      obtain ⟨e, h1, h2, _, h4, h5⟩ := ih fun x hx => h x (by simp [hx])
      have hc := h c (by simp)
      refine ⟨.char c e, by simp [LinkText.text, h1], fun hd => ⟨?_, ?_, h2 hd⟩, fun _ => rfl, h4, ?_⟩
      · rintro rfl; exact hc (by decide)
      · rintro rfl; exact hc (by decide)
      · simp [LinkText.without, LinkText.text, h5]
  have hin : ∀ c ∈ series ++ b!":" ++ title, c ∉ b!"[]|" := by
    intro c hc hm
    simp only [List.mem_append] at hc
    rcases hc with (hc | hc) | hc
    · exact hs c (by simp [hc]) (by revert hm; simp only [List.mem_cons, List.not_mem_nil, or_false]; tauto)
    · rw [List.mem_singleton.mp hc] at hm; exact absurd hm (by decide)
    · exact hs c (by simp [hc]) (by revert hm; simp only [List.mem_cons, List.not_mem_nil, or_false]; tauto)
  obtain ⟨i, i1, i2, i3, i4, _⟩ := chars (series ++ b!":" ++ title) .nil fun c hc hm => hin c hc
    (by revert hm; simp only [List.mem_cons, List.not_mem_nil, or_false]; tauto)
  obtain ⟨a, a1, a2, _, a4, a5⟩ := chars after .nil fun c hc => hb c (by simp [hc])
  obtain ⟨d, d1, d2, _, d4, d5⟩ := chars before (.link i a) fun c hc => hb c (by simp [hc])
  have hbar : (0x7C : Byte) ∉ series ++ b!":" ++ title := fun hm => hin _ hm (by decide)
  have hcut : cut b!"|" (series ++ b!":" ++ title) = none := by
    rw [cut_eq_none (by simp), ← contains_iff, contains_singleton]
    exact hbar
  have haim : linkAim (series ++ b!":" ++ title) = series ++ b!":" ++ title := by rw [linkAim, hcut]
  have hlab : linkLabel (series ++ b!":" ++ title) = [] := by rw [linkLabel, hcut]
  have hser : (0x3A : Byte) ∉ series := fun hm => hs 0x3A (by simp [hm]) (by decide)
  have htit : (0x3A : Byte) ∉ title := fun hm => hs 0x3A (by simp [hm]) (by decide)
  have hpre : linkPrefixes (series ++ b!":" ++ title) = [series] := by
    rw [linkPrefixes, List.append_assoc, List.singleton_append, split_singleton_append _ hser, split_singleton_of_not_mem htit]
    rfl
  have hu : Unwanted (linkRules env) (series ++ b!":" ++ title) := by
    refine ⟨?_, ?_, series, by rw [haim, hpre]; simp, hn, .inr ⟨hf, ha⟩⟩
    · rintro ⟨p, h1, h2⟩
      rw [haim, hpre] at h1
      cases h1
      exact hf h2
    · rw [haim]
      intro hp
      obtain ⟨c, r, rfl⟩ := List.exists_cons_of_ne_nil hne
      simp only [List.cons_append, List.cons_prefix_cons] at hp
      exact hser (by simp [hp.1])
  have hi : i.text = series ++ b!":" ++ title := by simpa [LinkText.text] using i1
  have := C41_unwanted_links_removed_partial env d (d2 ⟨i3 (by simp), i2 trivial, a2 trivial⟩)
    (d4 _ ⟨by rw [hi]; exact fun h => absurd (hlab ▸ h) (by simp), i4 _ trivial, a4 _ trivial⟩)
  rw [d1, d5] at this
  simp only [LinkText.text, hi, LinkText.without, if_pos hu, a1, a5, List.append_nil] at this
  simpa using this

example : exampleEnv.lower b!"Alien" ≠ [] ∧ exampleEnv.lower b!"Alien" ∉ exampleEnv.config.list .filePrefixes ∧
    exampleEnv.lower b!"Alien" ∉ exampleEnv.config.list .allowedLinkPrefixes ∧
    removeUnwantedInternalLinks exampleEnv b!"See [[Alien: Covenant]] (2017)." = .ok b!"See  (2017)." := by decide +kernel

/-- **C41** fails: a link without closing brackets crashes the program, as does a link that ends with a single bracket
at the end of the text. -/
theorem C41_unclosed_link_crashes :
    removeUnwantedInternalLinks exampleEnv b!"a [[b" = .panic ∧
    removeUnwantedInternalLinks exampleEnv b!"a [[Category:b]" = .panic := by decide +kernel

end Verif.Props
