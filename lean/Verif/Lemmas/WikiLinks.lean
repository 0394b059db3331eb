import Verif.Spec.WikiLinks
import Verif.Lemmas.TokMonad
import Verif.Lemmas.Cut
import Verif.Lemmas.Space

/-! Helper lemmas about links. -/

namespace Verif.Model
open Verif.Go Verif.Spec
open scoped List

theorem TokM.lift_ok {α : Type} (a : α) : TokM.lift (.ok a) = (pure a : TokM α) := rfl

variable {α : Type} [DecidableEq α]

/-- An occurrence of a text without `c` does not extend over `c`. -/
theorem infix_over {c : α} {p a b : List α} (hp : p ≠ []) (hc : c ∉ p) (h : p <:+: a ++ c :: b) : p <:+: a ∨ p <:+: b := by
  induction a with
  | nil =>
    rw [List.nil_append, List.infix_cons_iff] at h
    rcases h with h | h
    · cases p with
      | nil => exact absurd rfl hp
      | cons d p =>
        have := (List.cons_prefix_cons.mp h).1
        exact absurd (this ▸ List.mem_cons_self) hc
    · exact Or.inr h
  | cons d a ih =>
    rw [List.cons_append, List.infix_cons_iff] at h
    rcases h with h | h
    · left
      exact (prefix_of_prefix_sep (a := d :: a) hc h).isInfix
    · rcases ih h with h | h
      · exact Or.inl (List.infix_cons h)
      · exact Or.inr h

omit [DecidableEq α] in
/-- An occurrence of a text does not begin in front of its first character. -/
theorem infix_behind {c : α} {p a b : List α} (ha : c ∉ a) (h : c :: p <:+: a ++ b) : c :: p <:+: b := by
  induction a with
  | nil => exact h
  | cons d a ih =>
    rw [List.cons_append, List.infix_cons_iff] at h
    rcases h with h | h
    · exact absurd ((List.cons_prefix_cons.mp h).1 ▸ List.mem_cons_self) ha
    · exact ih (fun h => ha (by simp [h])) h

/-- The first separator is found if it does not begin earlier. -/
theorem split_pair {c : α} {a : List α} (b : List α) (h : ¬ [c, c] <:+: a ++ [c]) :
    split (a ++ [c, c] ++ b) [c, c] = a :: split b [c, c] := by
  induction a with
  | nil => exact split_of_prefix (by simp)
  | cons d a ih =>
    rw [List.cons_append, List.cons_append, split_cons_of_not_prefix, ih]
    · rfl
    · intro hh; exact h (List.infix_cons hh)
    · intro hp
      apply h
      have : [c, c] <+: (d :: a ++ [c]) ++ (c :: b) := by simpa using hp
      refine (List.prefix_of_prefix_length_le this (List.prefix_append _ _) (by simp)).isInfix

theorem cut_single {c : α} {a : List α} (b : List α) (h : c ∉ a) : cut [c] (a ++ c :: b) = some (a, b) := by
  have hn : NoBorder [c] := by
    refine ⟨by simp, ?_⟩
    intro x hx hlen
    simp_all
  have := hn.cut_append b (a := a) (by rwa [← contains_iff, contains_singleton])
  simpa using this

theorem cut_single_none {c : α} {a : List α} (h : c ∉ a) : cut [c] a = none := by
  rw [cut_eq_none (by simp), ← contains_iff, contains_singleton]
  exact h

theorem takeWhile_append_cons {c : α} {a : List α} (b : List α) (h : c ∉ a) :
    (a ++ c :: b).takeWhile (· ≠ c) = a := by
  induction a with
  | nil => simp
  | cons d a ih =>
    have hd : d ≠ c := fun e => h (by simp [e])
    have ih := ih (fun h' => h (by simp [h']))
    rw [List.cons_append, List.takeWhile_cons, if_pos (by simpa using hd), ih]

omit [DecidableEq α] in
/-- A text with the character is divided at the first one. -/
theorem exists_first_char {c : α} {s : List α} (h : c ∈ s) : ∃ a b, s = a ++ c :: b ∧ c ∉ a :=
  List.eq_append_cons_of_mem h

omit [DecidableEq α] in
theorem takeWhile_all {p : α → Bool} {s : List α} (h : ∀ x ∈ s, p x = true) : s.takeWhile p = s := by
  induction s with
  | nil => rfl
  | cons x s ih => rw [List.takeWhile_cons, if_pos (h x (by simp)), ih fun y hy => h y (by simp [hy])]

omit [DecidableEq α] in
theorem getLastD_cons_ne {l : List α} (h : l ≠ []) (a d : α) : (a :: l).getLastD d = l.getLastD d := by
  cases l with
  | nil => exact absurd rfl h
  | cons b l => simp [List.getLastD]

theorem getLast_split_singleton {c : α} (s : List α) :
    (split s [c]).getLastD [] = (s.reverse.takeWhile (· ≠ c)).reverse := by
  induction hn : s.length using Nat.strongRecOn generalizing s with
  | _ n ih =>
    by_cases hc : c ∈ s
    · obtain ⟨a, b, rfl, ha⟩ := exists_first_char hc
      rw [split_singleton_append b ha, getLastD_cons_ne (split_ne_nil b (by simp))]
      rw [ih b.length (by rw [← hn]; simp; omega) b rfl]
      congr 1
      rw [List.reverse_append, List.reverse_cons, List.append_assoc]
      by_cases hb : c ∈ b.reverse
      · obtain ⟨x, y, he, hx⟩ := exists_first_char hb
        rw [he, List.append_assoc, List.cons_append, takeWhile_append_cons _ hx, takeWhile_append_cons _ hx]
      · rw [List.singleton_append, takeWhile_append_cons _ hb, takeWhile_all]
        intro x hx
        have : x ≠ c := fun e => hb (e ▸ hx)
        simpa using this
    · rw [split_singleton_of_not_mem hc, takeWhile_all]
      · simp [List.getLastD]
      · intro x hx
        have : x ≠ c := fun e => hc (e ▸ List.mem_reverse.mp hx)
        simpa using this

/-! ### Links to articles -/

theorem inner_split (l : WikiLink) (after : Str) : ∃ d rest, l.inner ++ b!"]]" ++ after = l.name ++ d :: rest ∧
    (d = 0x5D ∨ d = 0x7C ∨ d = 0x23) := by
  obtain ⟨name, sect, label⟩ := l
  cases sect with
  | some s => exact ⟨0x23, _, by simp only [WikiLink.inner, List.append_assoc]; rfl, by simp⟩
  | none =>
    cases label with
    | some t => exact ⟨0x7C, _, by simp only [WikiLink.inner, List.append_assoc]; rfl, by simp⟩
    | none => exact ⟨0x5D, _, by simp only [WikiLink.inner, List.append_assoc]; rfl, by simp⟩

theorem isFileLink_of {env : ParserEnv} (hp : PlainPrefixes env) {l : WikiLink} (h : l.WellFormed env) (after : Str) :
    isFileLink env (l.inner ++ b!"]]" ++ after) = false := by
  obtain ⟨d, rest, e, hd⟩ := inner_split l after
  rw [e, isFileLink]
  by_cases hc : (0x3A : Byte) ∈ l.name
  · obtain ⟨a, b, hn, ha⟩ := exists_first_char hc
    have hf := h.noFile hc
    rw [hn, takeWhile_append_cons _ ha] at hf
    rw [hn, List.append_assoc, List.cons_append, cut_single _ ha]
    simpa using hf
  · by_cases hr : (0x3A : Byte) ∈ rest
    · obtain ⟨a, b, rfl, ha⟩ := exists_first_char hr
      have : l.name ++ d :: (a ++ 0x3A :: b) = (l.name ++ d :: a) ++ 0x3A :: b := by simp
      rw [this, cut_single]
      · simp only [decide_eq_false_iff_not]
        intro hm
        obtain ⟨h1, h2, h3⟩ := hp _ hm
        rcases hd with rfl | rfl | rfl
        · exact h1 (by simp)
        · exact h2 (by simp)
        · exact h3 (by simp)
      · simp only [List.mem_append, List.mem_cons, not_or]
        refine ⟨hc, ?_, ha⟩
        rcases hd with rfl | rfl | rfl <;> decide
    · rw [cut_single_none]
      simp only [List.mem_append, List.mem_cons, not_or]
      refine ⟨hc, ?_, hr⟩
      rcases hd with rfl | rfl | rfl <;> decide

/-- The part of a link in front of its text. -/
def WikiLink.front (l : WikiLink) : Str := l.name ++ (match l.sect with | none => [] | some s => b!"#" ++ s)

theorem WikiLink.inner_eq (l : WikiLink) :
    l.inner = WikiLink.front l ++ (match l.label with | none => [] | some t => b!"|" ++ t) := rfl

theorem WikiLink.front_chars {env : ParserEnv} {l : WikiLink} (h : l.WellFormed env) :
    (0x5B : Byte) ∉ WikiLink.front l ∧ (0x5D : Byte) ∉ WikiLink.front l ∧ (0x7C : Byte) ∉ WikiLink.front l := by
  have hn := h.name
  have hs := h.sect
  obtain ⟨name, sect, label⟩ := l
  cases sect with
  | none =>
    simp only [WikiLink.front, List.append_nil]
    exact ⟨fun hm => (hn _ hm).1 rfl, fun hm => (hn _ hm).2.1 rfl, fun hm => (hn _ hm).2.2.1 rfl⟩
  | some s =>
    have hs := hs s rfl
    simp only [WikiLink.front, List.mem_append, List.mem_cons, not_or]
    refine ⟨⟨fun hm => (hn _ hm).1 rfl, ⟨by decide, by simp⟩, fun hm => (hs _ hm).1 rfl⟩,
      ⟨fun hm => (hn _ hm).2.1 rfl, ⟨by decide, by simp⟩, fun hm => (hs _ hm).2.1 rfl⟩,
      ⟨fun hm => (hn _ hm).2.2.1 rfl, ⟨by decide, by simp⟩, fun hm => (hs _ hm).2.2 rfl⟩⟩

theorem inner_no_open {env : ParserEnv} {l : WikiLink} (h : l.WellFormed env) : ¬ b!"[[" <:+: l.inner := by
  intro hi
  rw [WikiLink.inner_eq] at hi
  have hi := infix_behind (WikiLink.front_chars h).1 hi
  cases hl : l.label with
  | none => rw [hl] at hi; simp at hi
  | some t =>
    rw [hl] at hi
    exact (h.label t hl).1 (infix_behind (a := b!"|") (by decide) hi)

theorem inner_no_close {env : ParserEnv} {l : WikiLink} (h : l.WellFormed env) : ¬ b!"]]" <:+: l.inner ++ b!"]" := by
  intro hi
  rw [WikiLink.inner_eq, List.append_assoc] at hi
  have hi := infix_behind (WikiLink.front_chars h).2.1 hi
  cases hl : l.label with
  | none =>
    rw [hl] at hi
    exact absurd hi.length_le (by simp)
  | some t =>
    rw [hl, List.append_assoc] at hi
    exact (h.label t hl).2 (infix_behind (a := b!"|") (by decide) hi)

theorem linkTarget_front {env : ParserEnv} {l : WikiLink} (h : l.WellFormed env) :
    linkTarget internalSyntax (WikiLink.front l) = l.target := by
  have hn : (0x23 : Byte) ∉ l.name := fun hm => (h.name _ hm).2.2.2 rfl
  have : (splitN b!"#" 2 (WikiLink.front l)).headD [] = l.name := by
    rw [splitN]
    cases hs : l.sect with
    | none =>
      have e : WikiLink.front l = l.name := by simp [WikiLink.front, hs]
      rw [e, cut_single_none hn]
      rfl
    | some s =>
      have e : WikiLink.front l = l.name ++ 0x23 :: s := by simp [WikiLink.front, hs]
      rw [e, cut_single _ hn]
      rfl
  show trimSpace ((splitN b!"#" 2 (WikiLink.front l)).headD []) = _
  rw [this]
  rfl

/-- One link with the text behind it. -/
theorem linkSegment_internal {env : ParserEnv} (rec : Rec) (hp : PlainPrefixes env) {l : WikiLink} (h : l.WellFormed env)
    (after : Str) : linkSegment env rec internalSyntax (l.inner ++ b!"]]" ++ after) = (do
      let text ← rec l.shown
      let key ← newToken b!"INTERNAL_LINK" (.internalLink l.target text)
      pure (key ++ after)) := by
  have hsplit : split (l.inner ++ b!"]]" ++ after) b!"]]" = l.inner :: split after b!"]]" :=
    split_pair (c := (0x5D : Byte)) after (inner_no_close h)
  have hafter : split after b!"]]" ≠ [] := split_ne_nil after (by simp)
  rw [linkSegment, isFileLink_of hp h]
  simp only [Bool.false_eq_true, if_false]
  have hs : splitHead (l.inner ++ b!"]]" ++ after) internalSyntax.closing = (l.inner, split after b!"]]") := by
    show (match split (l.inner ++ b!"]]" ++ after) b!"]]" with | [] => ([], []) | p :: ps => (p, ps)) = _
    rw [hsplit]
  have he : ∃ others, splitHead l.inner internalSyntax.delimiter = (WikiLink.front l, others) ∧
      linkText internalSyntax l.target others = .ok (some l.shown) := by
    cases hl : l.label with
    | none =>
      have e : l.inner = WikiLink.front l := by rw [WikiLink.inner_eq, hl]; simp
      refine ⟨[], ?_, ?_⟩
      · rw [e]
        show (match split (WikiLink.front l) b!"|" with | [] => ([], []) | p :: ps => (p, ps)) = _
        rw [split_singleton_of_not_mem (WikiLink.front_chars h).2.2]
      · have hne := h.nonEmpty hl
        have hsh : l.shown = if l.target.head? = some 0x3A then afterLastColon l.target else l.target := by
          rw [WikiLink.shown, hl]
        rw [hsh]
        obtain ⟨c, t, ht⟩ := List.exists_cons_of_ne_nil hne
        rw [ht]
        simp only [linkText, internalSyntax, if_true, Bool.not_true, Bool.false_eq_true, if_false]
        by_cases hc : c = 0x3A
        · rw [if_pos hc, if_pos (by simp [hc]), getLast_split_singleton]
          rfl
        · rw [if_neg hc, if_neg (by simpa using hc)]
    | some t =>
      have e : l.inner = WikiLink.front l ++ 0x7C :: t := by rw [WikiLink.inner_eq, hl]; rfl
      refine ⟨split t b!"|", ?_, ?_⟩
      · rw [e]
        show (match split (WikiLink.front l ++ 0x7C :: t) b!"|" with | [] => ([], []) | p :: ps => (p, ps)) = _
        rw [split_singleton_append t (WikiLink.front_chars h).2.2]
      · unfold linkText
        rw [if_neg (split_ne_nil t (by simp))]
        show Res.ok (some (join b!"|" (split t b!"|"))) = _
        rw [join_split_self t (by simp), WikiLink.shown, hl]
  obtain ⟨others, he1, he2⟩ := he
  rw [hs]
  simp only
  rw [he1]
  simp only
  rw [linkTarget_front h, he2]
  simp only [TokM.lift_ok, pure_bind]
  rw [if_pos hafter]
  have hj : join internalSyntax.closing (split after b!"]]") = after := join_split_self after (by decide)
  rw [hj]
  simp only [linkKey, linkToken, internalSyntax, if_true, bind_assoc, pure_bind, newToken]

theorem item_linkFree {env : ParserEnv} {l : WikiLink} (h : l.WellFormed env) {after : Str} (ha : LinkFree after) :
    LinkFree (l.inner ++ b!"]]" ++ after) := by
  intro hi
  have e : l.inner ++ b!"]]" ++ after ++ b!"[" = l.inner ++ 0x5D :: 0x5D :: (after ++ b!"[") := by simp
  rw [e] at hi
  rcases infix_over (c := (0x5D : Byte)) (by simp) (by decide) hi with hi | hi
  · exact inner_no_open h hi
  · exact ha (infix_behind (a := b!"]") (by decide) hi)

theorem split_linked {env : ParserEnv} (first : Str) (links : List (WikiLink × Str)) (hf : LinkFree first)
    (hl : ∀ x ∈ links, x.1.WellFormed env ∧ LinkFree x.2) :
    split (first ++ linkedText links) b!"[[" = first :: links.map fun x => x.1.inner ++ b!"]]" ++ x.2 := by
  induction links generalizing first with
  | nil =>
    rw [linkedText, List.append_nil, split_of_not_infix (by simp)]
    · rfl
    · intro hi; exact hf (hi.trans (List.prefix_append _ _).isInfix)
  | cons x links ih =>
    obtain ⟨l, after⟩ := x
    obtain ⟨hw, ha⟩ := hl (l, after) (by simp)
    have e : first ++ linkedText ((l, after) :: links) =
        first ++ b!"[[" ++ ((l.inner ++ b!"]]" ++ after) ++ linkedText links) := by
      simp [linkedText]
    rw [e, split_pair _ hf, ih _ (item_linkFree hw ha) fun x hx => hl x (by simp [hx])]
    rfl

theorem parseInternalLinks_doc {env : ParserEnv} (rec : Rec) (hp : PlainPrefixes env) (first : Str)
    (links : List (WikiLink × Str)) (hf : LinkFree first) (hl : ∀ x ∈ links, x.1.WellFormed env ∧ LinkFree x.2) :
    parseInternalLinks env rec (first ++ linkedText links) = (do
      let r ← tokenizedLinks rec links
      pure (first ++ r)) := by
  have hs : splitHead (first ++ linkedText links) internalSyntax.opening =
      (first, links.map fun x => x.1.inner ++ b!"]]" ++ x.2) := by
    show (match split (first ++ linkedText links) b!"[[" with | [] => ([], []) | p :: ps => (p, ps)) = _
    rw [split_linked first links hf hl]
  have hm : ∀ links : List (WikiLink × Str), (∀ x ∈ links, x.1.WellFormed env ∧ LinkFree x.2) →
      (do let segments ← linkSegments env rec internalSyntax (links.map fun x => x.1.inner ++ b!"]]" ++ x.2)
          pure segments.flatten) = tokenizedLinks rec links := by
    intro links
    induction links with
    | nil => intro _; rfl
    | cons x links ih =>
      obtain ⟨l, after⟩ := x
      intro hl
      have ih := ih fun x hx => hl x (by simp [hx])
      rw [tokenizedLinks, ← ih, List.map_cons, linkSegments, linkSegment_internal rec hp (hl (l, after) (by simp)).1]
      simp [bind_assoc, List.append_assoc]
  rw [parseInternalLinks, parseLink]
  simp only [hs]
  rw [← hm links hl]
  simp

/-! ### Brackets -/

theorem isFileLink_noFile {env : ParserEnv} {name : Str} (h : NoFile env name) (hc : (0x3A : Byte) ∈ name) (rest : Str) :
    isFileLink env (name ++ rest) = false := by
  have hf := h hc
  obtain ⟨a, b, hn, ha⟩ := exists_first_char hc
  rw [hn, takeWhile_append_cons _ ha] at hf
  rw [isFileLink, hn, List.append_assoc, List.cons_append, cut_single _ ha]
  simpa using hf

/-- One bracket with the text behind it. -/
theorem linkSegment_external {env : ParserEnv} (rec : Rec) {x : Bracket} (h : x.WellFormed env) (after : Str) :
    linkSegment env rec externalSyntax (x.inner ++ b!"]" ++ after) = (match x with
      | .web url label => do
        let text ← rec label
        let key ← newToken b!"EXTERNAL_LINK" (.externalLink url text)
        pure (key ++ after)
      | .other inner => pure (b!"[" ++ inner ++ b!"]" ++ after)) := by
  have hclose : (0x5D : Byte) ∉ x.inner := by
    cases x with
    | web url label =>
      obtain ⟨_, h2, _, h3, _⟩ := h
      simp only [Bracket.inner, List.mem_append, List.mem_cons, not_or]
      exact ⟨⟨fun hm => (h2 _ hm).2.1 rfl, by decide, by simp⟩, fun hm => (h3 _ hm).2 rfl⟩
    | other inner => exact fun hm => (h.1 _ hm).2 rfl
  have hafter : split after b!"]" ≠ [] := split_ne_nil after (by simp)
  have hs : splitHead (x.inner ++ b!"]" ++ after) externalSyntax.closing = (x.inner, split after b!"]") := by
    show (match split (x.inner ++ b!"]" ++ after) b!"]" with | [] => ([], []) | p :: ps => (p, ps)) = _
    rw [List.append_assoc, List.singleton_append, split_singleton_append after hclose]
  have hj : join externalSyntax.closing (split after b!"]") = after := join_split_self after (by decide)
  cases x with
  | web url label =>
    obtain ⟨h1, h2, h3, h4, h5⟩ := h
    have hcolon : (0x3A : Byte) ∈ url := by
      rcases h1 with ⟨t, rfl⟩ | ⟨t, rfl⟩ <;> simp
    have hfile : isFileLink env (Bracket.inner (.web url label) ++ b!"]" ++ after) = false := by
      have e : Bracket.inner (.web url label) ++ b!"]" ++ after = url ++ (b!" " ++ label ++ b!"]" ++ after) := by
        simp [Bracket.inner]
      rw [e]
      exact isFileLink_noFile h5 hcolon _
    have hsp : (0x20 : Byte) ∉ url := fun hm => (h2 _ hm).2.2 rfl
    have he : splitHead (Bracket.inner (.web url label)) externalSyntax.delimiter = (url, split label b!" ") := by
      show (match split (url ++ b!" " ++ label) b!" " with | [] => ([], []) | p :: ps => (p, ps)) = _
      rw [List.append_assoc, List.singleton_append, split_singleton_append label hsp]
    have ht : linkTarget externalSyntax url = url := h3
    have hx : linkText externalSyntax url (split label b!" ") = .ok (some label) := by
      unfold linkText
      rw [if_neg (split_ne_nil label (by simp))]
      show Res.ok (some (join b!" " (split label b!" "))) = _
      rw [join_split_self label (by simp)]
    have hprefix : hasAnyPrefix url [b!"http://", b!"https://"] = true := by
      simp only [hasAnyPrefix, List.any_cons, List.any_nil, Bool.or_false, Bool.or_eq_true, hasPrefix_iff]
      exact h1
    rw [linkSegment, hfile]
    simp only [Bool.false_eq_true, if_false]
    rw [hs]
    simp only
    rw [he]
    simp only
    rw [ht, hx]
    simp only [TokM.lift_ok, pure_bind]
    rw [if_pos hafter, hj]
    simp only [linkKey, linkToken, externalSyntax, Bool.false_eq_true, if_false, hprefix, if_true, bind_assoc, pure_bind,
      newToken]
  | other inner =>
    obtain ⟨h1, h2⟩ := h
    have same : (externalSyntax.opening ++ (Bracket.inner (.other inner) ++ b!"]" ++ after)) =
        b!"[" ++ inner ++ b!"]" ++ after := by
      simp [externalSyntax, Bracket.inner]
    rw [linkSegment]
    split
    · rw [same]
    · rw [hs]
      simp only
      by_cases hsp : (0x20 : Byte) ∈ inner
      · obtain ⟨a, b, hab, ha⟩ := exists_first_char hsp
        have hproto := h2 hsp
        rw [hab, takeWhile_append_cons _ ha] at hproto
        have he : splitHead (Bracket.inner (.other inner)) externalSyntax.delimiter = (a, split b b!" ") := by
          show (match split inner b!" " with | [] => ([], []) | p :: ps => (p, ps)) = _
          rw [hab, split_singleton_append b ha]
        have hx : linkText externalSyntax (linkTarget externalSyntax a) (split b b!" ") = .ok (some b) := by
          unfold linkText
          rw [if_neg (split_ne_nil b (by simp))]
          show Res.ok (some (join b!" " (split b b!" "))) = _
          rw [join_split_self b (by simp)]
        have hno : ¬ b!"://" <:+: linkTarget externalSyntax a := fun hi => hproto (hi.trans (trimSpace_infix a))
        have hn1 : hasAnyPrefix (linkTarget externalSyntax a) [b!"http://", b!"https://"] = false := by
          rw [← Bool.not_eq_true]
          simp only [hasAnyPrefix, List.any_cons, List.any_nil, Bool.or_false, Bool.or_eq_true, hasPrefix_iff]
          rintro (hp | hp)
          · exact hno (List.IsInfix.trans ⟨b!"http", [], by decide⟩ hp.isInfix)
          · exact hno (List.IsInfix.trans ⟨b!"https", [], by decide⟩ hp.isInfix)
        have hn2 : contains (linkTarget externalSyntax a) b!"://" = false := by
          rw [contains_eq_false_iff]; exact hno
        rw [he]
        simp only
        rw [hx]
        simp only [TokM.lift_ok, pure_bind]
        have hint : externalSyntax.internal = false := rfl
        rw [if_pos hafter, hj]
        simp only [linkKey, linkToken, hint, Bool.false_eq_true, if_false, hn1, hn2, pure_bind]
        rfl
      · have he : splitHead (Bracket.inner (.other inner)) externalSyntax.delimiter = (inner, []) := by
          show (match split inner b!" " with | [] => ([], []) | p :: ps => (p, ps)) = _
          rw [split_singleton_of_not_mem hsp]
        rw [he]
        simp only
        have hx : linkText externalSyntax (linkTarget externalSyntax inner) [] = .ok none := rfl
        rw [hx]
        simp only [TokM.lift_ok, pure_bind]
        rw [same]

theorem parseExternalLinks_doc {env : ParserEnv} (rec : Rec) (first : Str) (brackets : List (Bracket × Str))
    (hf : (0x5B : Byte) ∉ first) (hl : ∀ x ∈ brackets, x.1.WellFormed env ∧ (0x5B : Byte) ∉ x.2) :
    parseExternalLinks env rec (first ++ bracketText brackets) = (do
      let r ← tokenizedBrackets rec brackets
      pure (first ++ r)) := by
  have hopen : ∀ x : Bracket, x.WellFormed env → (0x5B : Byte) ∉ x.inner := by
    intro x h
    cases x with
    | web url label =>
      obtain ⟨_, h2, _, h3, _⟩ := h
      simp only [Bracket.inner, List.mem_append, List.mem_cons, not_or]
      exact ⟨⟨fun hm => (h2 _ hm).1 rfl, by decide, by simp⟩, fun hm => (h3 _ hm).1 rfl⟩
    | other inner => exact fun hm => (h.1 _ hm).1 rfl
  have hsplit : ∀ (first : Str) (brackets : List (Bracket × Str)), (0x5B : Byte) ∉ first →
      (∀ x ∈ brackets, x.1.WellFormed env ∧ (0x5B : Byte) ∉ x.2) →
      split (first ++ bracketText brackets) b!"[" = first :: brackets.map fun x => x.1.inner ++ b!"]" ++ x.2 := by
    intro first brackets
    induction brackets generalizing first with
    | nil => intro hf _; rw [bracketText, List.append_nil, split_singleton_of_not_mem hf]; rfl
    | cons x brackets ih =>
      obtain ⟨x, after⟩ := x
      intro hf hl
      obtain ⟨hw, ha⟩ := hl (x, after) (by simp)
      have e : first ++ bracketText ((x, after) :: brackets) =
          first ++ 0x5B :: ((x.inner ++ b!"]" ++ after) ++ bracketText brackets) := by
        simp [bracketText]
      rw [e, split_singleton_append _ hf, ih]
      · rfl
      · simp only [List.mem_append, List.mem_cons, not_or]
        exact ⟨⟨hopen x hw, by decide, by simp⟩, ha⟩
      · exact fun x hx => hl x (by simp [hx])
  have hs : splitHead (first ++ bracketText brackets) externalSyntax.opening =
      (first, brackets.map fun x => x.1.inner ++ b!"]" ++ x.2) := by
    show (match split (first ++ bracketText brackets) b!"[" with | [] => ([], []) | p :: ps => (p, ps)) = _
    rw [hsplit first brackets hf hl]
  have hm : ∀ brackets : List (Bracket × Str), (∀ x ∈ brackets, x.1.WellFormed env ∧ (0x5B : Byte) ∉ x.2) →
      (do let segments ← linkSegments env rec externalSyntax (brackets.map fun x => x.1.inner ++ b!"]" ++ x.2)
          pure segments.flatten) = tokenizedBrackets rec brackets := by
    intro brackets
    induction brackets with
    | nil => intro _; rfl
    | cons x brackets ih =>
      obtain ⟨x, after⟩ := x
      intro hl
      have ih := ih fun x hx => hl x (by simp [hx])
      rw [List.map_cons, linkSegments, linkSegment_external rec (hl (x, after) (by simp)).1]
      cases x with
      | web url label =>
        rw [tokenizedBrackets, ← ih]
        simp [bind_assoc, List.append_assoc]
      | other inner =>
        rw [tokenizedBrackets, ← ih]
        simp [List.append_assoc]
  rw [parseExternalLinks, parseLink]
  simp only [hs]
  rw [← hm brackets hl]
  simp

end Verif.Model
