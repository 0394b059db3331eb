import Verif.Lemmas.Atoms
import Verif.Spec.Termination
import Verif.Lemmas.Space
import Verif.Lemmas.Cut
import Mathlib.Data.Prod.Lex

/-!
# Termination of the tokenizer: computations that end, and the size of texts
-/

namespace Verif.Lemmas
open Verif.Go Verif.Model Verif.Spec
open scoped List

/-- The computation ends in every state and has the same result for all sufficiently large numbers of steps; the first number
is the one for the recursion, the second one for loops. If the computation returns normally, the result has the property. -/
def Halts {α : Type} (f : Nat → Nat → TokM α) (P : α → Prop) : Prop :=
  ∀ s, ∃ N r, (∀ n m, N ≤ n → N ≤ m → f n m s = some r) ∧ ∀ a s', r = .ok (a, s') → P a

theorem Halts.pure {α : Type} {P : α → Prop} {a : α} (h : P a) : Halts (fun _ _ => (Pure.pure a : TokM α)) P :=
  fun s => ⟨0, .ok (a, s), fun _ _ _ _ => rfl, fun b s' e => by cases e; exact h⟩

theorem Halts.panic {α : Type} {P : α → Prop} : Halts (fun _ _ => (TokM.panic : TokM α)) P :=
  fun _ => ⟨0, .panic, fun _ _ _ _ => rfl, fun _ _ e => by cases e⟩

theorem Halts.lift {α : Type} {P : α → Prop} {r : Res α} (h : ∀ a, r = .ok a → P a) : Halts (fun _ _ => TokM.lift r) P := by
  intro s
  cases r with
  | ok a => exact ⟨0, .ok (a, s), fun _ _ _ _ => rfl, fun b s' e => by cases e; exact h _ rfl⟩
  | err => exact ⟨0, .err, fun _ _ _ _ => rfl, fun b s' e => by cases e⟩
  | panic => exact ⟨0, .panic, fun _ _ _ _ => rfl, fun b s' e => by cases e⟩
  | fatal => exact ⟨0, .fatal, fun _ _ _ _ => rfl, fun b s' e => by cases e⟩

theorem Halts.bind {α β : Type} {f : Nat → Nat → TokM α} {g : Nat → Nat → α → TokM β} {P : α → Prop} {Q : β → Prop}
    (hf : Halts f P) (hg : ∀ a, P a → Halts (fun n m => g n m a) Q) : Halts (fun n m => f n m >>= g n m) Q := by
  intro s
  obtain ⟨N, r, h1, h2⟩ := hf s
  cases r with
  | ok x =>
    obtain ⟨a, s'⟩ := x
    obtain ⟨N', r', h3, h4⟩ := hg a (h2 a s' rfl) s'
    refine ⟨max N N', r', fun n m hn hm => ?_, h4⟩
    show (f n m >>= g n m) s = _
    rw [TokM.bind_eq, h1 n m (by omega) (by omega)]
    exact h3 n m (by omega) (by omega)
  | err => exact ⟨N, .err, fun n m hn hm => by show (f n m >>= g n m) s = _; rw [TokM.bind_eq, h1 n m hn hm], fun b s' e => by cases e⟩
  | panic => exact ⟨N, .panic, fun n m hn hm => by show (f n m >>= g n m) s = _; rw [TokM.bind_eq, h1 n m hn hm], fun b s' e => by cases e⟩
  | fatal => exact ⟨N, .fatal, fun n m hn hm => by show (f n m >>= g n m) s = _; rw [TokM.bind_eq, h1 n m hn hm], fun b s' e => by cases e⟩

theorem Halts.mono {α : Type} {f : Nat → Nat → TokM α} {P Q : α → Prop} (h : Halts f P) (hq : ∀ a, P a → Q a) : Halts f Q := by
  intro s
  obtain ⟨N, r, h1, h2⟩ := h s
  exact ⟨N, r, h1, fun a s' e => hq a (h2 a s' e)⟩

theorem Halts.succ {α : Type} {f : Nat → Nat → TokM α} {P : α → Prop} (h : Halts (fun n m => f n (m + 1)) P) : Halts f P := by
  intro s
  obtain ⟨N, r, h1, h2⟩ := h s
  refine ⟨N + 1, r, fun n m hn hm => ?_, h2⟩
  obtain ⟨m, rfl⟩ := Nat.exists_eq_add_of_le' (show 1 ≤ m by omega)
  exact h1 n m (by omega) (by omega)

theorem Halts.ite {α : Type} {p : Prop} [Decidable p] {f g : Nat → Nat → TokM α} {P : α → Prop} (hf : p → Halts f P)
    (hg : ¬ p → Halts g P) : Halts (fun n m => if p then f n m else g n m) P := by
  by_cases h : p
  · simpa only [if_pos h] using hf h
  · simpa only [if_neg h] using hg h

theorem Halts.setRawToken {P : Unit → Prop} (key : Str) (token : Token) (h : P ()) : Halts (fun _ _ => setRawToken key token) P :=
  fun _ => ⟨0, _, fun _ _ _ _ => rfl, fun _ _ e => by cases e; exact h⟩

theorem Halts.addImage {P : Unit → Prop} (name : Str) (h : P ()) : Halts (fun _ _ => addImage name) P :=
  fun _ => ⟨0, _, fun _ _ _ _ => rfl, fun _ _ e => by cases e; exact h⟩

/-! ### The size of a text -/

/-- The characters that begin an element. -/
def isMark (c : Byte) : Bool := c ∈ b!"[{=*#;:'"

/-- The number of tags. -/
def lts (s : Str) : Nat := s.count 0x3C

/-- The number of other characters of markup. -/
def wt (s : Str) : Nat := s.countP isMark

/-- Tags count more than all other characters. -/
def size (s : Str) : Nat ×ₗ Nat := toLex (lts s, wt s)

theorem size_lt {a b : Str} : size a < size b ↔ lts a < lts b ∨ lts a = lts b ∧ wt a < wt b := Prod.Lex.toLex_lt_toLex
theorem size_le {a b : Str} : size a ≤ size b ↔ lts a < lts b ∨ lts a = lts b ∧ wt a ≤ wt b := Prod.Lex.toLex_le_toLex

@[simp] theorem lts_append (a b : Str) : lts (a ++ b) = lts a + lts b := List.count_append
@[simp] theorem wt_append (a b : Str) : wt (a ++ b) = wt a + wt b := List.countP_append
@[simp] theorem lts_nil : lts [] = 0 := rfl
@[simp] theorem wt_nil : wt [] = 0 := rfl
theorem wt_cons (c : Byte) (s : Str) : wt (c :: s) = wt s + if isMark c then 1 else 0 := List.countP_cons
theorem lts_cons (c : Byte) (s : Str) : lts (c :: s) = lts s + if c = 0x3C then 1 else 0 := by
  rw [lts, List.count_cons]; simp [lts]

/-- Both numbers are at most as large. -/
structure Fits (a b : Str) : Prop where
  tags : lts a ≤ lts b
  marks : wt a ≤ wt b

theorem Fits.refl (a : Str) : Fits a a := ⟨Nat.le_refl _, Nat.le_refl _⟩
theorem Fits.trans {a b c : Str} (h : Fits a b) (h' : Fits b c) : Fits a c := ⟨h.1.trans h'.1, h.2.trans h'.2⟩
theorem Fits.of_sublist {a b : Str} (h : a <+ b) : Fits a b := ⟨h.count_le _, h.countP_le⟩
theorem Fits.append {a b c d : Str} (h : Fits a b) (h' : Fits c d) : Fits (a ++ c) (b ++ d) :=
  ⟨by have := h.1; have := h'.1; simp; omega, by have := h.2; have := h'.2; simp; omega⟩
theorem Fits.size_le {a b : Str} (h : Fits a b) : size a ≤ size b := by
  rw [Lemmas.size_le]; have := h.1; have := h.2; omega

/-- There are no characters of markup in the text. -/
def Bare (k : Str) : Prop := lts k = 0 ∧ wt k = 0

instance (k : Str) : Decidable (Bare k) := by unfold Bare; infer_instance

theorem Bare.append {a b : Str} (ha : Bare a) (hb : Bare b) : Bare (a ++ b) := by
  simp only [Bare, lts_append, wt_append] at *; omega

theorem bare_of {k : Str} (h : ∀ c ∈ k, c ≠ 0x3C ∧ isMark c = false) : Bare k := by
  constructor
  · exact List.count_eq_zero.mpr fun hm => (h _ hm).1 rfl
  · exact List.countP_eq_zero.mpr fun c hc => by simp [(h c hc).2]

theorem bare_tokenKey {type : Str} (n : Nat) (h : Bare type) : Bare (tokenKey type n) := by
  have hd : Bare (decimal n) := bare_of fun c hc => by
    have h := decimal_digits n c hc
    have hn : ∀ d ∈ b!"<[{=*#;:'", c ≠ d := by
      intro d hd e
      subst e
      exact absurd h ((by decide : ∀ d ∈ b!"<[{=*#;:'", ¬ ((48 : Byte) ≤ d ∧ d ≤ 57)) c hd)
    refine ⟨hn _ (by decide), ?_⟩
    simp only [isMark, decide_eq_false_iff_not]
    exact fun hm => hn c (List.mem_cons_of_mem _ hm) rfl
  exact (((Bare.append (by decide) h).append (by decide)).append hd).append (by decide)

theorem Halts.getToken {type : Str} (h : Bare type) : Halts (fun _ _ => getToken type) Bare :=
  fun s => ⟨0, _, fun _ _ _ _ => rfl, fun _ _ e => by cases e; exact bare_tokenKey _ h⟩

/-! ### Parts of a text -/

theorem flatten_sublist_join (sep : Str) : ∀ l : List Str, l.flatten <+ join sep l
  | [] => List.nil_sublist _
  | [p] => by simp [join]
  | p :: q :: r => by
    rw [join, List.flatten_cons, List.append_assoc]
    exact (List.Sublist.refl p).append ((flatten_sublist_join sep (q :: r)).trans (List.sublist_append_right _ _))

theorem split_flatten (s : Str) {sep : Str} (h : sep ≠ []) : (split s sep).flatten <+ s := by
  have := flatten_sublist_join sep (split s sep)
  rwa [join_split_self s h] at this

theorem sublist_flatten {p : Str} {l : List Str} (h : p ∈ l) : p <+ l.flatten := List.sublist_flatten_of_mem h

theorem split_piece {s sep p : Str} (h0 : sep ≠ []) (h : p ∈ split s sep) : p <+ s := (sublist_flatten h).trans (split_flatten s h0)

theorem trimSpace_sublist (s : Str) : trimSpace s <+ s := (trimSpace_infix s).sublist

/-- Line breaks do not count. -/
theorem size_lines (l : List Str) : lts (join b!"\n" l) = lts l.flatten ∧ wt (join b!"\n" l) = wt l.flatten := by
  match l with
  | [] => exact ⟨rfl, rfl⟩
  | [p] => simp [join]
  | p :: q :: r =>
    have ih := size_lines (q :: r)
    have hn : lts b!"\n" = 0 ∧ wt b!"\n" = 0 := by decide
    rw [join, List.flatten_cons]
    simp only [lts_append, wt_append]
    omega

theorem size_split (s : Str) : lts (split s b!"\n").flatten = lts s ∧ wt (split s b!"\n").flatten = wt s := by
  have := size_lines (split s b!"\n")
  rw [join_split_self s (by decide)] at this
  exact ⟨this.1.symm, this.2.symm⟩

/-- The text is unchanged or has become smaller. -/
def Step (c c' : Str) : Prop := c' = c ∨ size c' < size c

theorem Step.refl (c : Str) : Step c c := .inl rfl
theorem Step.trans {a b c : Str} (h : Step a b) (h' : Step b c) : Step a c := by
  rcases h with rfl | h
  · exact h'
  · rcases h' with rfl | h'
    · exact .inr h
    · exact .inr (h'.trans h)
theorem Step.size_le {a b : Str} (h : Step a b) : size b ≤ size a := by
  rcases h with rfl | h
  · exact le_refl _
  · exact h.le
theorem Step.of_lts {a b : Str} (h : lts b < lts a) : Step a b := .inr (size_lt.mpr (.inl h))

/-- The recursion ends for texts that are smaller, and its results are not larger. -/
def RecHalts (rec : Nat → Rec) (M : Nat ×ₗ Nat) : Prop :=
  ∀ t, size t < M → Halts (fun n _ => rec n t) fun r => size r ≤ size t

/-- A tag is replaced by a text without markup. -/
theorem lts_replace {content key : Str} {i j : Nat} (hk : Bare key) (hij : i < j) (hc : content[i]? = some 0x3C) :
    lts (content.take i ++ key ++ content.drop j) < lts content := by
  obtain ⟨hi, hc⟩ := List.getElem?_eq_some_iff.mp hc
  have h1 : content = content.take i ++ content[i] :: content.drop (i + 1) := by
    rw [← List.drop_eq_getElem_cons hi, List.take_append_drop]
  have h2 : content.drop j <+ content.drop (i + 1) := by
    obtain ⟨k, rfl⟩ := Nat.exists_eq_add_of_le (show i + 1 ≤ j by omega)
    rw [← List.drop_drop]
    exact List.drop_sublist _ _
  have h3 := (Fits.of_sublist h2).1
  have h4 := congrArg lts h1
  rw [lts_append, lts_cons, hc, if_pos rfl] at h4
  simp only [lts_append, hk.1]
  omega

end Verif.Lemmas
