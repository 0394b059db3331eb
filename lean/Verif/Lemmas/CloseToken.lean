import Verif.Model.CloseToken
import Verif.Spec.Nesting
import Verif.Lemmas.Strings

namespace Verif.Lemmas
open Verif.Go Verif.Model Verif.Spec

/-- Number of open tokens after some elements, starting with `k` open tokens; `none` when there is a closing token
without an opening one. -/
def level : Nat → List Piece → Option Nat
  | k, [] => some k
  | k, .other _ :: l => level k l
  | k, .opening _ :: l => level (k + 1) l
  | 0, .closing _ :: _ => none
  | k + 1, .closing _ :: l => level k l

theorem level_append (a b : List Piece) (k : Nat) : level k (a ++ b) = (level k a).bind fun j => level j b := by
  induction a generalizing k with
  | nil => rfl
  | cons p a ih =>
    cases p with
    | other x => exact ih k
    | opening o => exact ih (k + 1)
    | closing c =>
      cases k with
      | zero => rfl
      | succ k => exact ih k

theorem level_of_balanced {l : List Piece} (h : Balanced l) (k : Nat) : level k l = some k := by
  induction h generalizing k with
  | nil => rfl
  | other x l _ ih => exact ih k
  | nested o c inner l _ _ ih1 ih2 =>
    show level (k + 1) (inner ++ .closing c :: l) = some k
    rw [level_append, ih1]
    exact ih2 k

/-- Elements that close `k` open tokens. -/
inductive Closes : Nat → List Piece → Prop
  | zero (l : List Piece) : Balanced l → Closes 0 l
  | succ (k : Nat) (l m : List Piece) (c : Str) : Balanced l → Closes k m → Closes (k + 1) (l ++ .closing c :: m)

theorem closes_other {k : Nat} {l : List Piece} (x : Byte) (h : Closes k l) : Closes k (.other x :: l) := by
  cases h with
  | zero l hb => exact .zero _ (.other x l hb)
  | succ k l m c hb hm => exact .succ k (.other x :: l) m c (.other x l hb) hm

theorem closes_opening {k : Nat} {l : List Piece} (o : Str) (h : Closes (k + 1) l) : Closes k (.opening o :: l) := by
  generalize hk : k + 1 = k' at h
  cases h with
  | zero => omega
  | succ j l m c hb hm =>
    obtain rfl : j = k := by omega
    cases hm with
    | zero m hm' => exact .zero _ (.nested o c l m hb hm')
    | succ j l' m' c' hb' hm' =>
      have := Closes.succ j (.opening o :: l ++ .closing c :: l') m' c' (.nested o c l l' hb hb') hm'
      simpa using this

theorem closes_of_level {l : List Piece} {k : Nat} (h : level k l = some 0) : Closes k l := by
  induction l generalizing k with
  | nil => simp only [level, Option.some.injEq] at h; subst h; exact .zero _ .nil
  | cons p l ih =>
    cases p with
    | other x => exact closes_other x (ih h)
    | opening o => exact closes_opening o (ih h)
    | closing c =>
      cases k with
      | zero => cases h
      | succ k => exact .succ k [] l c .nil (ih h)

theorem balanced_iff_level {l : List Piece} : Balanced l ↔ level 0 l = some 0 := by
  constructor
  · intro h; exact level_of_balanced h 0
  · intro h
    cases closes_of_level h with
    | zero _ hb => exact hb

/-! ### The loop -/

section
variable {ic : Bool} {opening closing : Str}

/-- Texts that count as opening token. -/
def IsOpen (ic : Bool) (opening closing : Str) (s : Str) : Prop :=
  sameToken ic opening closing = false ∧ sameToken ic s opening = true

/-- Texts that count as closing token. -/
def IsClose (ic : Bool) (closing : Str) (s : Str) : Prop := sameToken ic s closing = true

theorem sameToken_length {a b : Str} (h : sameToken ic a b = true) : a.length = b.length := by
  unfold sameToken at h
  split at h
  · unfold equalsIgnoreCase at h
    have := congrArg List.length (beq_iff_eq.mp h)
    simpa using this
  · rw [beq_iff_eq.mp h]

theorem cursor_same {rest tok : Str} (h0 : tok ≠ []) :
    sameToken ic (cursorText rest tok.length) tok = true ↔ ∃ o r, rest = o ++ r ∧ sameToken ic o tok = true := by
  unfold cursorText
  split
  · constructor
    · intro h
      exact ⟨rest.take tok.length, rest.drop tok.length, (List.take_append_drop _ _).symm, h⟩
    · rintro ⟨o, r, rfl, h⟩
      rw [← sameToken_length h, List.take_left]
      exact h
  · rename_i hlen
    constructor
    · intro h
      have := sameToken_length h
      simp only [List.length_nil] at this
      exact absurd (List.length_eq_zero_iff.mp this.symm) h0
    · rintro ⟨o, r, rfl, h⟩
      have := sameToken_length h
      simp at hlen
      omega

theorem closeLoop_skip (t : Str) (skip i k : Nat) :
    closeLoop ic opening closing t skip i k = closeLoop ic opening closing (t.drop skip) 0 (i + min skip t.length) k := by
  induction t generalizing skip i with
  | nil => cases skip <;> simp [closeLoop]
  | cons c t ih =>
    cases skip with
    | zero => simp
    | succ skip =>
      rw [closeLoop, ih]
      simp only [List.drop_succ_cons, List.length_cons]
      congr 1
      omega

/-- The result of the search in terms of the elements of the text. -/
def target (k i : Nat) (pieces : List Piece) (res : Option Nat) : Prop :=
  (∀ pre c post, pieces = pre ++ .closing c :: post → level k pre = some 0 → res = some (i + (textOf pre).length)) ∧
  (∀ p, res = some p → ∃ pre c post, pieces = pre ++ .closing c :: post ∧ level k pre = some 0 ∧
    p = i + (textOf pre).length)

theorem target_cons {p : Piece} {k j i : Nat} {l : List Piece} {res : Option Nat}
    (hk : ∀ pre, level k (p :: pre) = level j pre) (hne : k = 0 → ∀ c, p ≠ .closing c)
    (h : target j (i + p.text.length) l res) : target k i (p :: l) res := by
  constructor
  · intro pre c post e hl
    cases pre with
    | nil =>
      simp only [level, Option.some.injEq] at hl
      simp only [List.nil_append, List.cons.injEq] at e
      exact absurd e.1 (hne hl c)
    | cons q pre =>
      simp only [List.cons_append, List.cons.injEq] at e
      obtain ⟨rfl, e⟩ := e
      rw [hk] at hl
      rw [h.1 pre c post e hl]
      simp [textOf, Nat.add_assoc]
  · intro q hq
    obtain ⟨pre, c, post, e, hl, hp⟩ := h.2 q hq
    refine ⟨p :: pre, c, post, by rw [e]; rfl, by rw [hk]; exact hl, ?_⟩
    rw [hp]
    simp [textOf, Nat.add_assoc]

theorem closeLoop_target (ho : opening ≠ []) (hc : closing ≠ []) {text : Str} {pieces : List Piece}
    (h : Reads (IsOpen ic opening closing) (IsClose ic closing) text pieces) (i k : Nat) :
    target k i pieces (closeLoop ic opening closing text 0 i k) := by
  induction h generalizing i k with
  | nil =>
    constructor
    · intro pre c post e; exact absurd e (by simp)
    · intro p hp; cases hp
  | opening o r l hio hr ih =>
    have hlen := sameToken_length hio.2
    cases o with
    | nil => exact absurd (List.length_eq_zero_iff.mp hlen.symm) ho
    | cons x o =>
      simp only [List.cons_append]
      rw [closeLoop]
      rw [if_pos ⟨by rw [hio.1]; simp, (cursor_same ho).mpr ⟨x :: o, r, rfl, hio.2⟩⟩, closeLoop_skip]
      have e : opening.length - 1 = o.length := by simp at hlen; omega
      rw [e, List.drop_left]
      refine target_cons (j := k + 1) (fun _ => rfl) (fun _ c h => by cases h) ?_
      have := ih (i + (x :: o).length) (k + 1)
      have e2 : i + 1 + min o.length (o ++ r).length = i + (x :: o).length := by simp; omega
      rw [e2]; exact this
  | closing c r l hno hic hr ih =>
    have hlen := sameToken_length hic
    cases c with
    | nil => exact absurd (List.length_eq_zero_iff.mp hlen.symm) hc
    | cons x c =>
      simp only [List.cons_append]
      rw [closeLoop]
      have hcur : sameToken ic (cursorText (x :: (c ++ r)) closing.length) closing = true :=
        (cursor_same hc).mpr ⟨x :: c, r, rfl, hic⟩
      rw [if_neg, if_pos hcur]
      · cases k with
        | zero =>
          rw [if_pos rfl]
          constructor
          · intro pre d post e hl
            cases pre with
            | nil => simp [textOf]
            | cons q pre =>
              simp only [List.cons_append, List.cons.injEq] at e
              rw [← e.1] at hl
              cases hl
          · intro p hp
            simp only [Option.some.injEq] at hp
            exact ⟨[], _, l, rfl, rfl, by simp [textOf, hp]⟩
        | succ k =>
          rw [if_neg (by omega), Nat.add_sub_cancel, closeLoop_skip]
          have e : closing.length - 1 = c.length := by simp at hlen; omega
          rw [e, List.drop_left]
          refine target_cons (j := k) (fun _ => rfl) (fun h => by omega) ?_
          have := ih (i + (x :: c).length) k
          have e2 : i + 1 + min c.length (c ++ r).length = i + (x :: c).length := by simp; omega
          rw [e2]; exact this
      · rintro ⟨h1, h2⟩
        obtain ⟨o, r', e, h3⟩ := (cursor_same ho).mp h2
        refine hno o ⟨by simpa using h1, h3⟩ ?_
        rw [List.cons_append, e]
        exact List.prefix_append _ _
  | other x r l hno hnc hr ih =>
    rw [closeLoop, if_neg, if_neg]
    · exact target_cons (j := k) (fun _ => rfl) (fun _ c h => by cases h) (ih (i + 1) k)
    · intro h
      obtain ⟨c, r', e, h3⟩ := (cursor_same hc).mp h
      exact hnc c h3 (by rw [e]; exact List.prefix_append _ _)
    · rintro ⟨h1, h2⟩
      obtain ⟨o, r', e, h3⟩ := (cursor_same ho).mp h2
      exact hno o ⟨by simpa using h1, h3⟩ (by rw [e]; exact List.prefix_append _ _)

/-- Every text can be read. -/
theorem reads_exists {isOpen isClose : Str → Prop} (ho : ∀ o, isOpen o → o ≠ []) (hc : ∀ c, isClose c → c ≠ [])
    (text : Str) : ∃ pieces, Reads isOpen isClose text pieces := by
  induction hn : text.length using Nat.strongRecOn generalizing text with
  | _ n ih =>
    cases text with
    | nil => exact ⟨[], .nil⟩
    | cons x r =>
      by_cases h1 : ∃ o, isOpen o ∧ o <+: x :: r
      · obtain ⟨o, h1, r', e⟩ := h1
        have hl := List.length_pos_of_ne_nil (ho o h1)
        have := congrArg List.length e
        simp only [List.length_append] at this
        obtain ⟨l, hl⟩ := ih r'.length (by omega) r' rfl
        exact ⟨_, by rw [← e]; exact .opening o r' l h1 hl⟩
      · by_cases h2 : ∃ c, isClose c ∧ c <+: x :: r
        · obtain ⟨c, h2, r', e⟩ := h2
          have hl := List.length_pos_of_ne_nil (hc c h2)
          have := congrArg List.length e
          simp only [List.length_append] at this
          obtain ⟨l, hl⟩ := ih r'.length (by omega) r' rfl
          refine ⟨_, by rw [← e]; exact .closing c r' l (fun o ho' hp => h1 ⟨o, ho', by rw [← e]; exact hp⟩) h2 hl⟩
        · obtain ⟨l, hl⟩ := ih r.length (by rw [← hn]; simp) r rfl
          exact ⟨_, .other x r l (fun o ho' hp => h1 ⟨o, ho', hp⟩) (fun c hc' hp => h2 ⟨c, hc', hp⟩) hl⟩

theorem reads_text {isOpen isClose : Str → Prop} {text : Str} {pieces : List Piece}
    (h : Reads isOpen isClose text pieces) : textOf pieces = text := by
  induction h with
  | nil => rfl
  | opening o r l _ _ ih => simp only [textOf, List.flatMap_cons, Piece.text] at *; rw [ih]
  | closing o r l _ _ _ ih => simp only [textOf, List.flatMap_cons, Piece.text] at *; rw [ih]
  | other x r l _ _ _ ih => simp only [textOf, List.flatMap_cons, Piece.text] at *; rw [ih]; rfl

end

end Verif.Lemmas
