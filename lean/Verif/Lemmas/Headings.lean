import Mathlib.Data.List.Forall2
import Verif.Lemmas.Tokens
import Verif.Lemmas.Space
import Verif.Spec.Headings

/-!
# Lemmas about headings
-/

namespace Verif.Model
open Verif.Go Verif.Spec
open scoped List

theorem repeatStr_eq (n : Nat) : repeatStr b!"=" n = List.replicate n (0x3D : Byte) := by
  induction n with
  | zero => rfl
  | succ n ih => rw [repeatStr, ih]; rfl

theorem trimSpace_tokenKey (t : Str) (n : Nat) : trimSpace (tokenKey t n) = tokenKey t n := by
  apply trimSpace_visible
  · intro c hc
    unfold tokenKey at hc
    simp only [List.append_assoc, List.cons_append, List.head?_cons, Option.some.injEq] at hc
    subst hc
    decide
  · intro c hc
    unfold tokenKey at hc
    rw [List.getLast?_append_of_ne_nil _ (by simp)] at hc
    simp only [List.getLast?_cons_cons, List.getLast?_singleton, Option.some.injEq] at hc
    subst hc
    decide

/-- A key is no heading. -/
theorem isHeadingOf_tokenKey (d : Nat) (t : Str) (n : Nat) : isHeadingOf (d + 1) (tokenKey t n) = false := by
  unfold isHeadingOf
  rw [trimSpace_tokenKey, Bool.and_eq_false_iff]
  left
  rw [← Bool.not_eq_true, hasPrefix_iff, repeatStr_eq]
  rintro ⟨r, hr⟩
  simp [tokenKey, List.replicate_succ] at hr

/-- The greatest depth up to `d` for which the line is a heading, 0 if there is none. -/
def levelUpTo (line : Str) : Nat → Nat
  | 0 => 0
  | d + 1 => if isHeadingOf (d + 1) line then d + 1 else levelUpTo line d

theorem levelUpTo_le (line : Str) (d : Nat) : levelUpTo line d ≤ d := by
  induction d with
  | zero => exact Nat.le_refl _
  | succ d ih => unfold levelUpTo; split <;> omega

theorem levelUpTo_heading {line : Str} {d : Nat} (h : levelUpTo line d ≠ 0) :
    isHeadingOf (levelUpTo line d) line = true := by
  induction d with
  | zero => exact absurd rfl h
  | succ d ih =>
    unfold levelUpTo at h ⊢
    split
    · rename_i hh; exact hh
    · rename_i hh
      rw [if_neg hh] at h
      exact ih h

theorem levelUpTo_greatest {line : Str} {d k : Nat} (h1 : levelUpTo line d < k) (h2 : k ≤ d) :
    isHeadingOf k line = false := by
  induction d with
  | zero => omega
  | succ d ih =>
    unfold levelUpTo at h1
    split at h1
    · omega
    · rename_i hh
      by_cases hk : k = d + 1
      · subst hk; simpa using hh
      · exact ih h1 (by omega)

/-- The line has become a heading: its key stands for a heading with the result of tokenizing its text. -/
def BecameHeading (rec : Rec) (s : TokState) (line out : Str) : Prop :=
  ∃ k content s₁ s₂, out = tokenKey b!"HEADING" k ∧
    rec (headingText (levelUpTo line 7) line) s₁ = some (.ok (content, s₂)) ∧
    lookupToken s.tokenMap out = some (.heading content (levelUpTo line 7))

/-- The state of a line when all depths above `d` have been processed. -/
def DoneAbove (rec : Rec) (d : Nat) (s : TokState) (line out : Str) : Prop :=
  (levelUpTo line 7 ≤ d → out = line) ∧ (d < levelUpTo line 7 → BecameHeading rec s line out)

theorem DoneAbove.mono {rec : Rec} {d : Nat} {s s' : TokState} {line out : Str} (h : DoneAbove rec d s line out)
    (hc : KeysCreated s) (hg : Grows s s') : DoneAbove rec d s' line out := by
  refine ⟨h.1, fun hl => ?_⟩
  obtain ⟨k, content, s₁, s₂, h1, h2, h3⟩ := h.2 hl
  exact ⟨k, content, s₁, s₂, h1, h2, hg.lookup hc h3⟩

theorem growing_headingLine {rec : Rec} (h : ∀ c, Growing (rec c)) (depth : Nat) (line : Str) :
    Growing (headingLine rec depth line) :=
  Growing.ite (Growing.reserved (fun _ => h _) (fun _ _ => Growing.pure _)) (Growing.pure _)

theorem headingLine_done {rec : Rec} {d : Nat} (hd : d < 7) {s s' : TokState} {line out out' : Str}
    (h : DoneAbove rec (d + 1) s line out)
    (hr : headingLine rec (d + 1) out s = some (.ok (out', s'))) : DoneAbove rec d s' line out' := by
  by_cases hl : levelUpTo line 7 ≤ d + 1
  · have ho := h.1 hl
    subst ho
    unfold headingLine at hr
    split at hr
    · rename_i hh
      have hlev : levelUpTo out 7 = d + 1 := by
        by_contra hne
        have := levelUpTo_greatest (line := out) (d := 7) (k := d + 1) (by omega) (by omega)
        rw [hh] at this
        cases this
      obtain ⟨key, s₁, h1, h2⟩ := TokM.bind_ok.mp hr
      obtain ⟨content, s₂, h3, h4⟩ := TokM.bind_ok.mp h2
      obtain ⟨_, s₃, h5, h6⟩ := TokM.bind_ok.mp h4
      cases h1
      cases h5
      cases h6
      refine ⟨fun hle => by omega, fun _ => ?_⟩
      exact ⟨s.counter, content, _, _, rfl, by rw [hlev]; exact h3, by rw [hlev]; exact lookup_head _ _ _⟩
    · rename_i hh
      cases hr
      refine ⟨fun _ => rfl, fun hlt => ?_⟩
      have hlev : levelUpTo out 7 = d + 1 := by omega
      have := levelUpTo_heading (line := out) (d := 7) (by omega)
      rw [hlev] at this
      exact absurd this hh
  · have hb := h.2 (by omega)
    obtain ⟨k, content, s₁, s₂, h1, h2, h3⟩ := hb
    unfold headingLine at hr
    rw [if_neg (by rw [h1, isHeadingOf_tokenKey]; simp)] at hr
    cases hr
    exact ⟨fun hle => by omega, fun _ => ⟨k, content, s₁, s₂, h1, h2, h3⟩⟩

theorem headingLines_done {rec : Rec} (hrec : ∀ c, Growing (rec c)) {d : Nat} (hd : d < 7) :
    ∀ {lines outs outs' : List Str} {s s' : TokState}, List.Forall₂ (DoneAbove rec (d + 1) s) lines outs →
    KeysCreated s → headingLines rec (d + 1) outs s = some (.ok (outs', s')) →
    List.Forall₂ (DoneAbove rec d s') lines outs' := by
  intro lines
  induction lines with
  | nil =>
    intro outs outs' s s' h hc hr
    cases h
    cases hr
    exact .nil
  | cons line lines ih =>
    intro outs outs' s s' h hc hr
    cases h with
    | cons h hs =>
      obtain ⟨out', s₁, h1, h2⟩ := TokM.bind_ok.mp hr
      obtain ⟨outs'', s₂, h3, h4⟩ := TokM.bind_ok.mp h2
      cases h4
      have hg₁ := growing_headingLine hrec _ _ _ _ _ h1
      have hg₂ := growing_headingLines hrec _ _ _ _ _ h3
      have hc₁ := hg₁.keysCreated hc
      refine .cons ((headingLine_done hd h h1).mono hc₁ hg₂) (ih ?_ hc₁ h3)
      exact hs.imp fun _ _ h => h.mono hc hg₁

theorem headingDepths_done {rec : Rec} (hrec : ∀ c, Growing (rec c)) {d : Nat} (hd : d ≤ 7) :
    ∀ {lines outs outs' : List Str} {s s' : TokState}, List.Forall₂ (DoneAbove rec d s) lines outs →
    KeysCreated s → headingDepths rec d outs s = some (.ok (outs', s')) →
    List.Forall₂ (DoneAbove rec 0 s') lines outs' := by
  induction d with
  | zero =>
    intro lines outs outs' s s' h hc hr
    cases hr
    exact h
  | succ d ih =>
    intro lines outs outs' s s' h hc hr
    obtain ⟨outs₁, s₁, h1, h2⟩ := TokM.bind_ok.mp hr
    have hg := growing_headingLines hrec _ _ _ _ _ h1
    exact ih (by omega) (headingLines_done hrec (by omega) h hc h1) (hg.keysCreated hc) h2

/-- What happens to the lines of a text. -/
theorem parseHeadings_done {rec : Rec} (hrec : ∀ c, Growing (rec c)) {content result : Str} {s s' : TokState}
    (hc : KeysCreated s) (hr : parseHeadings rec content s = some (.ok (result, s'))) :
    ∃ outs, result = join b!"\n" outs ∧ List.Forall₂ (DoneAbove rec 0 s') (split content b!"\n") outs := by
  obtain ⟨outs, s₁, h1, h2⟩ := TokM.bind_ok.mp hr
  cases h2
  refine ⟨outs, rfl, headingDepths_done hrec (Nat.le_refl 7) ?_ hc h1⟩
  rw [List.forall₂_same]
  exact fun line _ => ⟨fun _ => rfl, fun h => absurd (levelUpTo_le line 7) (by omega)⟩

/-! ### Level and text of a heading -/

theorem replicate_prefix {a n : Nat} {inner rest : Str} (hne : inner ≠ []) (hh : inner.head? ≠ some 0x3D) :
    List.replicate a (0x3D : Byte) <+: List.replicate n 0x3D ++ inner ++ rest ↔ a ≤ n := by
  induction n generalizing a with
  | zero =>
    obtain ⟨c, t, rfl⟩ := List.exists_cons_of_ne_nil hne
    cases a with
    | zero => simp
    | succ a =>
      simp only [List.replicate_succ, List.replicate_zero, List.nil_append, List.cons_append, List.cons_prefix_cons]
      simp only [List.head?_cons, ne_eq, Option.some.injEq] at hh
      constructor
      · rintro ⟨rfl, _⟩; exact absurd rfl hh
      · omega
  | succ n ih =>
    cases a with
    | zero => simp
    | succ a =>
      simp only [List.replicate_succ, List.cons_append, List.cons_prefix_cons, true_and]
      rw [ih]
      omega

theorem replicate_suffix {a n : Nat} {inner rest : Str} (hne : inner ≠ []) (hh : inner.getLast? ≠ some 0x3D) :
    List.replicate a (0x3D : Byte) <:+ rest ++ inner ++ List.replicate n 0x3D ↔ a ≤ n := by
  rw [← List.reverse_prefix]
  simp only [List.reverse_append, List.reverse_replicate]
  rw [← List.append_assoc]
  exact replicate_prefix (by simpa using hne) (by simpa using hh)

theorem isHeadingOf_iff {line : Str} {n : Nat} {inner : Str} {a : Nat}
    (h : trimSpace line = List.replicate n 0x3D ++ inner ++ List.replicate n 0x3D) (hne : inner ≠ [])
    (hh : inner.head? ≠ some 0x3D) (hl : inner.getLast? ≠ some 0x3D) : isHeadingOf a line = true ↔ a ≤ n := by
  unfold isHeadingOf
  rw [Bool.and_eq_true, hasPrefix_iff, hasSuffix_iff, repeatStr_eq, h, replicate_prefix hne hh, replicate_suffix hne hl]
  simp

theorem levelUpTo_of_heading {line : Str} {n : Nat} {text : Str} (h : IsHeading line n text) : levelUpTo line 7 = n := by
  obtain ⟨⟨h1, h2⟩, inner, h3, h4, h5, h6, _⟩ := h
  have key : ∀ d, levelUpTo line (n + d) = n := by
    intro d
    induction d with
    | zero =>
      obtain ⟨m, rfl⟩ := Nat.exists_eq_add_of_le' h1
      rw [Nat.add_zero, levelUpTo, if_pos ((isHeadingOf_iff h3 h4 h5 h6).mpr (Nat.le_refl _))]
    | succ d ih =>
      rw [← Nat.add_assoc, levelUpTo, if_neg]
      · exact ih
      · rw [isHeadingOf_iff h3 h4 h5 h6]; omega
  have := key (7 - n)
  rwa [show n + (7 - n) = 7 by omega] at this

theorem levelUpTo_of_not_marked {line : Str} (h : ¬ MarkedLine line) (d : Nat) : levelUpTo line d = 0 := by
  induction d with
  | zero => rfl
  | succ d ih =>
    rw [levelUpTo, if_neg, ih]
    intro hh
    apply h
    unfold isHeadingOf at hh
    rw [Bool.and_eq_true, hasPrefix_iff, hasSuffix_iff, repeatStr_eq] at hh
    refine ⟨List.IsPrefix.trans ?_ hh.1, List.IsSuffix.trans ?_ hh.2⟩
    · rw [List.replicate_succ]; exact ⟨_, rfl⟩
    · rw [List.replicate_succ']; exact ⟨_, rfl⟩

/-- The markers are removed at both ends and nothing else is, if the text does not contain the marker. -/
theorem replaceAll_inner {n : Nat} (hn : 1 ≤ n) {inner : Str} (hl : inner.getLast? ≠ some 0x3D)
    (hi : ¬ List.replicate n (0x3D : Byte) <:+: inner) :
    replaceAll (inner ++ List.replicate n 0x3D) (List.replicate n 0x3D) [] = inner := by
  have h0 : List.replicate n (0x3D : Byte) ≠ [] := by simp; omega
  induction inner with
  | nil =>
    rw [List.nil_append]
    have := replaceAll_of_prefix (old := List.replicate n (0x3D : Byte)) (new := []) (s := []) h0
    simpa using this
  | cons c t ih =>
    rw [List.cons_append, replaceAll_cons_of_not_prefix, ih]
    · cases t with
      | nil => simp
      | cons d t => simpa [List.getLast?_cons_cons] using hl
    · exact fun h => hi (h.trans (List.suffix_cons c t).isInfix)
    · rw [← List.cons_append]
      rintro ⟨r, hr⟩
      by_cases hlen : n ≤ (c :: t).length
      · apply hi
        have : List.replicate n (0x3D : Byte) <+: c :: t := by
          refine List.prefix_of_prefix_length_le ⟨r, hr⟩ (List.prefix_append _ _) (by simpa using hlen)
        exact this.isInfix
      · have hp : c :: t <+: List.replicate n (0x3D : Byte) :=
          List.prefix_of_prefix_length_le (List.prefix_append _ _) ⟨r, hr⟩ (by simp at hlen ⊢; omega)
        apply hl
        have hm : (c :: t).getLast (by simp) ∈ List.replicate n (0x3D : Byte) :=
          hp.subset (List.getLast_mem (by simp))
        rw [List.getLast?_eq_some_getLast (by simp), (List.mem_replicate.mp hm).2]

theorem replicate_infix_append {n : Nat} {c : Byte} (hn : 1 ≤ n) {a b : Str} (ha : c ∉ a)
    (h : List.replicate n c <:+: a ++ b) : List.replicate n c <:+: b := by
  induction a with
  | nil => exact h
  | cons d a ih =>
    rw [List.cons_append, List.infix_cons_iff] at h
    rcases h with ⟨r, hr⟩ | h
    · obtain ⟨m, rfl⟩ := Nat.exists_eq_add_of_le' hn
      rw [List.replicate_succ, List.cons_append, List.cons.injEq] at hr
      exact absurd (hr.1 ▸ List.mem_cons_self) ha
    · exact ih (fun hm => ha (List.mem_cons_of_mem _ hm)) h

theorem not_mem_allSpace {l : Str} (h : AllSpace spaceChars l) : (0x3D : Byte) ∉ l := by
  obtain ⟨ls, h1, rfl⟩ := h
  intro hm
  obtain ⟨c, hc, hm⟩ := List.mem_flatten.mp hm
  have hall : ∀ c ∈ spaceChars, (0x3D : Byte) ∉ c := by decide
  exact hall c (h1 c hc) hm

/-- White space around the text does not matter. -/
theorem replicate_infix_trimSpace {n : Nat} (hn : 1 ≤ n) {inner : Str}
    (h : List.replicate n (0x3D : Byte) <:+: inner) : List.replicate n (0x3D : Byte) <:+: trimSpace inner := by
  obtain ⟨_, _, l, r, hl, hr, he⟩ := trimSpace_spec inner
  rw [he, List.append_assoc] at h
  have h' := replicate_infix_append hn (not_mem_allSpace hl) h
  rw [← List.reverse_infix, List.reverse_append, List.reverse_replicate] at h'
  have h'' := replicate_infix_append hn (by simpa using not_mem_allSpace hr) h'
  rwa [← List.reverse_infix, List.reverse_reverse, List.reverse_replicate] at h''

theorem headingText_of_heading {line : Str} {n : Nat} {text inner : Str} (h1 : 1 ≤ n)
    (h3 : trimSpace line = List.replicate n 0x3D ++ inner ++ List.replicate n 0x3D)
    (h6 : inner.getLast? ≠ some 0x3D) (h7 : text = trimSpace inner)
    (hi : ¬ List.replicate n (0x3D : Byte) <:+: inner) : headingText n line = text := by
  unfold headingText
  have h0 : List.replicate n (0x3D : Byte) ≠ [] := by simp; omega
  rw [repeatStr_eq, h3, List.append_assoc, replaceAll_of_prefix h0, List.nil_append, replaceAll_inner h1 h6 hi, h7]

end Verif.Model
