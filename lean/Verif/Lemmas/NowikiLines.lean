import Verif.Spec.NowikiLines
import Verif.Lemmas.Nowiki
import Verif.Lemmas.Atoms
import Verif.Props.Nowiki
import Verif.Props.PlainText
import Verif.Props.CleanLinks
import Verif.Props.Expand

/-! # Paragraphs with nowiki tags (C38) -/

namespace Verif.Lemmas
open Verif.Go Verif.Model Verif.Spec Verif.Props
open scoped List

/-! ### Texts with inserted elements -/

/-- Texts in front of elements and a text at the end. -/
abbrev Segs (α : Type) := List (Str × α) × Str

def render {α : Type} (f : α → Str) (s : Segs α) : Str := (s.1.flatMap fun p => p.1 ++ f p.2) ++ s.2

def Segs.before {α : Type} (t : Str) : Segs α → Segs α
  | ([], z) => ([], t ++ z)
  | ((x, a) :: ps, z) => ((t ++ x, a) :: ps, z)

/-- The lines as one text. -/
def flat {α : Type} : List (Segs α) → Segs α
  | [] => ([], [])
  | [l] => l
  | l :: l' :: ls => (l.1 ++ (Segs.before (l.2 ++ b!"\n") (flat (l' :: ls))).1, (Segs.before (l.2 ++ b!"\n") (flat (l' :: ls))).2)

theorem render_before {α : Type} (f : α → Str) (t : Str) (s : Segs α) : render f (Segs.before t s) = t ++ render f s := by
  obtain ⟨_ | ⟨⟨x, a⟩, ps⟩, z⟩ := s <;> simp [Segs.before, render]

theorem render_flat {α : Type} (f : α → Str) : ∀ ls : List (Segs α), render f (flat ls) = join b!"\n" (ls.map (render f))
  | [] => rfl
  | [l] => by simp [flat, join]
  | l :: l' :: ls => by
    have ih := render_flat f (l' :: ls)
    have hb := render_before f (l.2 ++ b!"\n") (flat (l' :: ls))
    rw [List.map_cons, join_cons_of_ne_nil (by simp), ← ih]
    show (List.flatMap _ (l.1 ++ (Segs.before (l.2 ++ b!"\n") (flat (l' :: ls))).1)) ++ (Segs.before (l.2 ++ b!"\n") (flat (l' :: ls))).2 = _
    rw [List.flatMap_append, List.append_assoc]
    refine (congrArg _ hb).trans ?_
    simp [render]

theorem elements_before {α : Type} (t : Str) (s : Segs α) : (Segs.before t s).1.map Prod.snd = s.1.map Prod.snd := by
  obtain ⟨_ | ⟨⟨x, a⟩, ps⟩, z⟩ := s <;> simp [Segs.before]

theorem elements_flat {α : Type} : ∀ ls : List (Segs α), (flat ls).1.map Prod.snd = ls.flatMap fun l => l.1.map Prod.snd
  | [] => rfl
  | [l] => by simp [flat]
  | l :: l' :: ls => by
    have ih := elements_flat (l' :: ls)
    show (l.1 ++ _).map Prod.snd = _
    rw [List.map_append, elements_before, ih]
    simp

/-- The texts of the lines and their parts, as they are in the joined text. -/
theorem flat_texts {α : Type} (Q : Str → Prop) (hQ : ∀ a b, Q b → Q (a ++ b!"\n" ++ b)) (Q' : Str → Prop) (hQ' : ∀ a b, Q' a → Q' b → Q' (a ++ b!"\n" ++ b)) :
    ∀ ls : List (Segs α), (∀ l ∈ ls, (∀ p ∈ l.1, Q p.1 ∧ Q' p.1) ∧ Q' l.2) → ls ≠ [] → (∀ p ∈ (flat ls).1, Q p.1 ∧ Q' p.1) ∧ Q' (flat ls).2
  | [], _, h => absurd rfl h
  | [l], h, _ => h l (by simp)
  | l :: l' :: ls, h, _ => by
    obtain ⟨ih, ih'⟩ := flat_texts Q hQ Q' hQ' (l' :: ls) (fun x hx => h x (by simp only [List.mem_cons] at hx ⊢; exact Or.inr hx)) (by simp)
    obtain ⟨hl, hl'⟩ := h l (by simp)
    have hb : (∀ p ∈ (Segs.before (l.2 ++ b!"\n") (flat (l' :: ls))).1, Q p.1 ∧ Q' p.1) ∧ Q' (Segs.before (l.2 ++ b!"\n") (flat (l' :: ls))).2 := by
      generalize flat (l' :: ls) = s at ih ih'
      obtain ⟨_ | ⟨⟨x, a⟩, ps⟩, z⟩ := s
      · exact ⟨by simp [Segs.before], hQ' _ _ hl' ih'⟩
      · refine ⟨fun p hp => ?_, ih'⟩
        rcases List.mem_cons.mp hp with rfl | hp
        · have hx := ih (x, a) (List.mem_cons_self)
          exact ⟨hQ _ _ hx.1, hQ' _ _ hl' hx.2⟩
        · exact ih p (by simp [hp])
    refine ⟨fun p hp => ?_, hb.2⟩
    rcases List.mem_append.mp hp with hp | hp
    · exact hl p hp
    · exact hb.1 p hp

/-! ### What a text contains, begins and ends with -/

theorem not_infix_two {p a b : Str} (ha : ¬ p <:+: a) (hb : ¬ p <:+: b)
    (h : (∃ c, b.head? = some c ∧ c ∉ p.tail) ∨ ∃ c, a.getLast? = some c ∧ c ∉ p.dropLast) : ¬ p <:+: a ++ b := by
  intro hi
  rcases infix_append_cases hi with hi | hi | ⟨x, y, hx, hy, rfl, hxa, hyb⟩
  · exact ha hi
  · exact hb hi
  · rcases h with ⟨c, hc, hm⟩ | ⟨c, hc, hm⟩
    · obtain ⟨d, y, rfl⟩ := List.exists_cons_of_ne_nil hy
      obtain ⟨e, x, rfl⟩ := List.exists_cons_of_ne_nil hx
      obtain ⟨t, rfl⟩ := hyb
      simp only [List.cons_append, List.head?_cons, Option.some.injEq] at hc
      subst hc
      exact hm (by simp)
    · obtain ⟨x', d, rfl⟩ : ∃ x' d, x = x' ++ [d] := ⟨x.dropLast, x.getLast hx, (List.dropLast_append_getLast hx).symm⟩
      obtain ⟨y', e, rfl⟩ : ∃ y' e, y = y' ++ [e] := ⟨y.dropLast, y.getLast hy, (List.dropLast_append_getLast hy).symm⟩
      obtain ⟨t, rfl⟩ := hxa
      rw [← List.append_assoc, List.getLast?_concat] at hc
      obtain rfl := Option.some.inj hc
      refine hm ?_
      rw [← List.append_assoc, List.dropLast_concat]
      simp

/-- A replacement whose ends are not in the pattern. -/
def Fenced (p r : Str) : Prop := ¬ p <:+: r ∧ (∃ c, r.head? = some c ∧ c ∉ p.tail) ∧ ∃ c, r.getLast? = some c ∧ c ∉ p.dropLast

theorem not_infix_render {α : Type} {p : Str} (f : α → Str) (s : Segs α) (ht : ∀ q ∈ s.1, ¬ p <:+: q.1 ∧ Fenced p (f q.2)) (hl : ¬ p <:+: s.2) :
    ¬ p <:+: render f s := by
  obtain ⟨ps, z⟩ := s
  induction ps with
  | nil => simpa [render] using hl
  | cons q ps ih =>
    obtain ⟨h1, h2, ⟨c, hc, hcm⟩, ⟨e, he, hem⟩⟩ := ht q (by simp)
    have ih := ih (fun q' hq' => ht q' (by simp [hq'])) hl
    have : render f (q :: ps, z) = (q.1 ++ f q.2) ++ render f (ps, z) := by simp [render]
    rw [this]
    refine not_infix_two (not_infix_two h1 h2 (Or.inl ⟨c, hc, hcm⟩)) ih (Or.inr ⟨e, ?_, hem⟩)
    rw [List.getLast?_append, he]
    rfl

theorem prefix_render {α : Type} {p : Str} (f g : α → Str) (s : Segs α) (hf : ∀ q ∈ s.1, ∃ c, (f q.2).head? = some c ∧ c ∉ p)
    (h : p <+: render f s) : p <+: render g s := by
  obtain ⟨_ | ⟨q, ps⟩, z⟩ := s
  · simpa [render] using h
  · obtain ⟨c, hc, hm⟩ := hf q (by simp)
    obtain ⟨r, hr⟩ : ∃ r, f q.2 = c :: r := by
      cases hq : f q.2 with
      | nil => rw [hq] at hc; cases hc
      | cons d r => rw [hq] at hc; exact ⟨r, by simpa using hc⟩
    have e : render f (q :: ps, z) = q.1 ++ c :: (r ++ render f (ps, z)) := by simp [render, hr]
    rw [e] at h
    refine (prefix_of_prefix_sep hm h).trans ?_
    simp only [render, List.flatMap_cons, List.append_assoc]
    exact List.prefix_append _ _

theorem render_last {α : Type} (f : α → Str) (ps : List (Str × α)) (q : Str × α) (z : Str) :
    render f (ps ++ [q], z) = render f (ps, q.1) ++ f q.2 ++ z := by simp [render]

theorem suffix_of_suffix_sep {c : Byte} {a b p : Str} (hc : c ∉ p) (h : p <:+ (a ++ [c]) ++ b) : p <:+ b := by
  have h' := List.reverse_prefix.mpr h
  have := prefix_of_prefix_sep (c := c) (a := b.reverse) (b := a.reverse) (p := p.reverse) (by simpa using hc) (by simpa using h')
  exact List.reverse_prefix.mp this

theorem suffix_render {α : Type} {p : Str} (f g : α → Str) (s : Segs α) (hf : ∀ q ∈ s.1, ∃ c, (f q.2).getLast? = some c ∧ c ∉ p)
    (h : p <:+ render f s) : p <:+ render g s := by
  obtain ⟨ps, z⟩ := s
  rcases List.eq_nil_or_concat ps with rfl | ⟨ps, q, rfl⟩
  · simpa [render] using h
  · obtain ⟨c, hc, hm⟩ := hf q (by simp)
    obtain ⟨r, hr⟩ : ∃ r, f q.2 = r ++ [c] := by
      have hne : f q.2 ≠ [] := by intro h0; rw [h0] at hc; cases hc
      refine ⟨(f q.2).dropLast, ?_⟩
      rw [List.getLast?_eq_some_getLast hne] at hc
      rw [← Option.some.inj hc, List.dropLast_append_getLast]
    simp only [List.concat_eq_append] at h ⊢
    rw [render_last, hr, ← List.append_assoc] at h
    refine (suffix_of_suffix_sep hm h).trans ?_
    rw [render_last]
    exact List.suffix_append _ _

/-! ### Numbered elements -/

/-- The elements of a line with their numbers. -/
def numbered : Nat → List NowikiPart → List (Str × (NowikiPart × Nat))
  | _, [] => []
  | n, p :: ps => (p.text, (p, n)) :: numbered (n + 1) ps

abbrev KeySegs := Segs (NowikiPart × Nat)

def lineSegs (n : Nat) (l : NowikiLine) : KeySegs := (numbered n l.parts, l.last)

def linesSegs : Nat → List NowikiLine → List KeySegs
  | _, [] => []
  | n, l :: ls => lineSegs n l :: linesSegs (n + l.parts.length) ls

def srcOf (q : NowikiPart × Nat) : Str := q.1.opening ++ q.1.inner ++ q.1.closing
def keyOf (q : NowikiPart × Nat) : Str := tokenKey b!"HEADINNOWIKI" q.2
def innerOf (q : NowikiPart × Nat) : Str := q.1.inner
def letterOf (_ : NowikiPart × Nat) : Str := b!"X"

theorem render_numbered (g : NowikiPart → Str) (parts : List NowikiPart) (z : Str) (n : Nat) :
    render (fun q : NowikiPart × Nat => g q.1) (numbered n parts, z) = (parts.flatMap fun p => p.text ++ g p) ++ z := by
  induction parts generalizing n with
  | nil => rfl
  | cons p ps ih =>
    have := ih (n + 1)
    simp only [render, numbered, List.flatMap_cons, List.append_assoc] at this ⊢
    rw [this]

theorem render_source (n : Nat) (l : NowikiLine) : render srcOf (lineSegs n l) = l.source := by
  have := render_numbered (fun p => p.opening ++ p.inner ++ p.closing) l.parts l.last n
  refine this.trans ?_
  simp [NowikiLine.source, nowikiText]

theorem render_shown (n : Nat) (l : NowikiLine) : render innerOf (lineSegs n l) = l.shown :=
  render_numbered (fun p => p.inner) l.parts l.last n

theorem render_outline (n : Nat) (l : NowikiLine) : render letterOf (lineSegs n l) = l.outline :=
  render_numbered (fun _ => b!"X") l.parts l.last n

theorem mem_numbered {parts : List NowikiPart} {n : Nat} {q : Str × (NowikiPart × Nat)} (h : q ∈ numbered n parts) :
    q.2.1 ∈ parts ∧ q.1 = q.2.1.text := by
  induction parts generalizing n with
  | nil => cases h
  | cons p ps ih =>
    rcases List.mem_cons.mp h with rfl | h
    · exact ⟨by simp, rfl⟩
    · exact ⟨by simp [(ih h).1], (ih h).2⟩

theorem mem_linesSegs {ls : List NowikiLine} {n : Nat} {s : KeySegs} (h : s ∈ linesSegs n ls) : ∃ l ∈ ls, ∃ m, s = lineSegs m l := by
  induction ls generalizing n with
  | nil => cases h
  | cons l ls ih =>
    rcases List.mem_cons.mp h with rfl | h
    · exact ⟨l, by simp, n, rfl⟩
    · obtain ⟨l', hl', m, rfl⟩ := ih h
      exact ⟨l', by simp [hl'], m, rfl⟩

theorem map_linesSegs {f : NowikiPart × Nat → Str} {g : NowikiLine → Str} (h : ∀ n l, render f (lineSegs n l) = g l) (ls : List NowikiLine) (n : Nat) :
    (linesSegs n ls).map (render f) = ls.map g := by
  induction ls generalizing n with
  | nil => rfl
  | cons l ls ih => rw [linesSegs, List.map_cons, List.map_cons, h, ih]

theorem linesSegs_append (a b : List NowikiLine) (n : Nat) :
    linesSegs n (a ++ b) = linesSegs n a ++ linesSegs (n + (a.flatMap NowikiLine.parts).length) b := by
  induction a generalizing n with
  | nil => rfl
  | cons l a ih =>
    rw [List.cons_append, linesSegs, linesSegs, ih, List.cons_append, List.flatMap_cons, List.length_append, Nat.add_assoc]

theorem linesSegs_empty (k n : Nat) : linesSegs n (List.replicate k ⟨[], []⟩) = List.replicate k ([], []) := by
  induction k generalizing n with
  | zero => rfl
  | succ k ih => rw [List.replicate_succ, linesSegs, ih]; rfl

/-- The numbers are consecutive. -/
def Consecutive : Nat → List (NowikiPart × Nat) → Prop
  | _, [] => True
  | n, q :: qs => q.2 = n ∧ Consecutive (n + 1) qs

theorem consecutive_append {a b : List (NowikiPart × Nat)} {n : Nat} (ha : Consecutive n a) (hb : Consecutive (n + a.length) b) :
    Consecutive n (a ++ b) := by
  induction a generalizing n with
  | nil => exact hb
  | cons q a ih => exact ⟨ha.1, ih ha.2 (by rw [List.length_cons] at hb; convert hb using 1; omega)⟩

theorem consecutive_numbered (parts : List NowikiPart) (n : Nat) : Consecutive n ((numbered n parts).map Prod.snd) := by
  induction parts generalizing n with
  | nil => trivial
  | cons p ps ih => exact ⟨rfl, ih (n + 1)⟩

theorem length_numbered (parts : List NowikiPart) (n : Nat) : (numbered n parts).length = parts.length := by
  induction parts generalizing n with
  | nil => rfl
  | cons p ps ih => simp [numbered, ih]

theorem consecutive_lines (ls : List NowikiLine) (n : Nat) : Consecutive n ((linesSegs n ls).flatMap fun s => s.1.map Prod.snd) := by
  induction ls generalizing n with
  | nil => trivial
  | cons l ls ih =>
    rw [linesSegs, List.flatMap_cons]
    refine consecutive_append (consecutive_numbered _ _) ?_
    rw [List.length_map]
    show Consecutive (n + (numbered n l.parts).length) _
    rw [length_numbered]
    exact ih _

/-- A text as `C38_content_verbatim_partial` has it. -/
def toParts (s : KeySegs) : List NowikiPart := s.1.map fun q => { q.2.1 with text := q.1 }

theorem toParts_text (s : KeySegs) : nowikiText (toParts s) s.2 = render srcOf s := by
  obtain ⟨ps, z⟩ := s
  simp only [nowikiText, toParts, render, List.flatMap_map]
  congr 1
  refine List.flatMap_congr fun q _ => ?_
  simp [srcOf]

theorem toParts_keys (ps : List (Str × (NowikiPart × Nat))) (z : Str) (n : Nat) (h : Consecutive n (ps.map Prod.snd)) :
    nowikiKeys n (toParts (ps, z)) = ps.map fun q => keyOf q.2 := by
  induction ps generalizing n with
  | nil => rfl
  | cons q ps ih =>
    have := ih (n + 1) h.2
    simp only [toParts, List.map_cons, nowikiKeys] at this ⊢
    rw [this, keyOf, h.1]

theorem toParts_filled (ps : List (Str × (NowikiPart × Nat))) (z : Str) :
    nowikiFilled (toParts (ps, z)) (ps.map fun q => keyOf q.2) z = render keyOf (ps, z) := by
  induction ps with
  | nil => rfl
  | cons q ps ih =>
    simp only [toParts, List.map_cons, nowikiFilled, render, List.flatMap_cons, List.append_assoc] at ih ⊢
    rw [ih]

/-! ### Lines with tags and with keys -/

theorem lowered_infix {p s : Str} (h : p <:+: s) : lowered p <:+: lowered s := by
  obtain ⟨a, b, rfl⟩ := h
  exact ⟨lowered a, lowered b, by simp [lowered]⟩

theorem lowered_head {s : Str} {t : Str} (h : lowered s = 0x3C :: t) : s.head? = some 0x3C := by
  cases s with
  | nil => cases h
  | cons c s =>
    have : lowerByte c = 0x3C := (List.cons.inj h).1
    rw [(lowerByte_eq c).1 this]
    rfl

theorem lowerByte_gt (c : Byte) (h : lowerByte c = 0x3E) : c = 0x3E := by
  unfold lowerByte at h
  split at h
  · rename_i hb
    exfalso
    simp only [Bool.and_eq_true, decide_eq_true_eq] at hb
    have h1 := UInt8.le_iff_toNat_le.mp hb.1
    have h2 := UInt8.le_iff_toNat_le.mp hb.2
    have h3 := congrArg UInt8.toNat h
    simp at h1 h2 h3
    omega
  · exact h

theorem lowered_last {s t : Str} (h : lowered s = t ++ [0x3E]) : s.getLast? = some 0x3E := by
  have h' : (lowered s).getLast? = some 0x3E := by rw [h]; simp
  rw [lowered, List.getLast?_map] at h'
  obtain ⟨c, hc, he⟩ := Option.map_eq_some_iff.mp h'
  rw [hc, lowerByte_gt c he]

theorem fenced_src {p : Str} {q : NowikiPart} (hq : q.WellFormed) (hi : ¬ p <:+: q.inner) (h1 : ¬ lowered p <:+: b!"<nowiki>")
    (h2 : ¬ lowered p <:+: b!"</nowiki>") (h3 : (0x3C : Byte) ∉ p.tail) (h4 : (0x3E : Byte) ∉ p.dropLast) :
    Fenced p (q.opening ++ q.inner ++ q.closing) := by
  have ho := lowered_head (t := b!"nowiki>") hq.opening
  have hc := lowered_head (t := b!"/nowiki>") hq.closing
  have ho' := lowered_last (t := b!"<nowiki") hq.opening
  have hc' := lowered_last (t := b!"</nowiki") hq.closing
  refine ⟨not_infix_two (not_infix_two (fun h => h1 (by rw [← hq.opening]; exact lowered_infix h)) hi (Or.inr ⟨_, ho', h4⟩))
    (fun h => h2 (by rw [← hq.closing]; exact lowered_infix h)) (Or.inl ⟨_, hc, h3⟩), ⟨0x3C, ?_, h3⟩, ⟨0x3E, ?_, h4⟩⟩
  · simp [List.head?_append, ho]
  · simp [List.getLast?_append, hc']

theorem key_char {n : Nat} {c : Byte} (h : c ∈ tokenKey b!"HEADINNOWIKI" n) : c = 0x24 ∨ tokenChar c = true :=
  tokenKey_chars n (by decide) c h

theorem key_ends (n : Nat) : (tokenKey b!"HEADINNOWIKI" n).head? = some 0x24 ∧ (tokenKey b!"HEADINNOWIKI" n).getLast? = some 0x24 := by
  constructor
  · rfl
  · unfold tokenKey
    rw [List.getLast?_append]
    rfl

theorem fenced_key {p : Str} (n : Nat) (h : ∃ c ∈ p, c ≠ 0x24 ∧ tokenChar c = false) (h1 : (0x24 : Byte) ∉ p) :
    Fenced p (tokenKey b!"HEADINNOWIKI" n) := by
  obtain ⟨c, hc, h2, h3⟩ := h
  refine ⟨fun hi => ?_, ⟨_, (key_ends n).1, fun hm => h1 (List.mem_of_mem_tail hm)⟩, ⟨_, (key_ends n).2, fun hm => h1 (List.dropLast_subset _ hm)⟩⟩
  rcases key_char (hi.subset hc) with h | h
  · exact h2 h
  · rw [h3] at h; cases h

end Verif.Lemmas
