import Verif.Lemmas.RefNumbers

/-!
# Lemmas about the numbers of references
-/

namespace Verif.Model
open Verif.Go Verif.Spec
open scoped List

theorem refMention_snoc {items : List (RefItem Str)} {item : RefItem Str} {k : Nat} {g : Str} {id : RefId} :
    RefMention (items ++ [item]) k g id ↔ RefMention items k g id ∨ k = items.length ∧ item.mentions items.length = some (g, id) := by
  unfold RefMention
  rcases Nat.lt_trichotomy k items.length with h | h | h
  · rw [List.getElem?_append_left h]
    constructor
    · exact Or.inl
    · rintro (h' | h')
      · exact h'
      · omega
  · subst h
    simp
  · rw [List.getElem?_eq_none (by simp; omega), List.getElem?_eq_none (by omega)]
    constructor
    · rintro ⟨_, h', _⟩; cases h'
    · rintro (⟨_, h', _⟩ | h')
      · cases h'
      · omega

theorem refMention_lt {items : List (RefItem Str)} {k : Nat} {g : Str} {id : RefId} (h : RefMention items k g id) : k < items.length := by
  obtain ⟨item, h, _⟩ := h
  exact (List.getElem?_eq_some_iff.mp h).1

theorem refMention_take {items : List (RefItem Str)} {n k : Nat} {g : Str} {id : RefId} :
    RefMention (items.take n) k g id ↔ k < n ∧ RefMention items k g id := by
  unfold RefMention
  rw [List.getElem?_take]
  split
  · rename_i h; simp [h]
  · rename_i h
    constructor
    · rintro ⟨_, h', _⟩; cases h'
    · rintro ⟨h', _⟩; omega

theorem mem_refOrder (g : Str) (id : RefId) (items : List (RefItem Str)) : id ∈ refOrder g items ↔ ∃ k, RefMention items k g id := by
  rw [← List.reverse_reverse items]
  generalize items.reverse = l
  induction l with
  | nil => simp [refOrder, refOrderFrom, RefMention]
  | cons item l ih =>
    rw [List.reverse_cons]
    simp only [refMention_snoc, exists_or, ← ih]
    cases hm : item.mentions l.reverse.length with
    | none => rw [refOrder_other hm]; simp
    | some x =>
      obtain ⟨g', id'⟩ := x
      rw [refOrder_mention hm]
      by_cases hg : g' = g
      · subst hg
        rw [if_pos rfl, mentioned]
        split
        · rename_i hin
          constructor
          · exact Or.inl
          · rintro (h | ⟨_, _, h⟩)
            · exact h
            · simp only [Option.some.injEq, Prod.mk.injEq, true_and] at h
              exact h ▸ hin
        · simp [eq_comm]
      · rw [if_neg hg]
        simp [hg]

theorem refOrder_take {items : List (RefItem Str)} (n : Nat) (g : Str) : refOrder g (items.take n) <+: refOrder g items := by
  have := refOrder_prefix g (items.take n) (items.drop n)
  rwa [List.take_append_drop] at this

theorem refNumber_eq {items : List (RefItem Str)} {k : Nat} {g : Str} {id : RefId} (h : RefMention items k g id) :
    refNumber items k g id = (refOrder g items).idxOf id := by
  obtain ⟨r, hr⟩ := refOrder_take (items := items) (k + 1) g
  have hm : id ∈ refOrder g (items.take (k + 1)) := (mem_refOrder _ _ _).mpr ⟨k, refMention_take.mpr ⟨by omega, h⟩⟩
  rw [refNumber, ← hr, List.idxOf_append_of_mem hm]

theorem refDefs_from (g : Str) (items : List (RefItem Str)) : ∀ d ∈ refDefs g items, ∃ k tag as space closing,
    items[k]? = some (.define tag as space d.2 closing) ∧ RefMention items k g d.1 := by
  rw [← List.reverse_reverse items]
  generalize items.reverse = l
  induction l with
  | nil => simp [refDefs, refDefsFrom]
  | cons item l ih =>
    rw [List.reverse_cons]
    intro d hd
    rw [refDefs_append] at hd
    have old : d ∈ refDefs g l.reverse → ∃ k tag as space closing,
        (l.reverse ++ [item])[k]? = some (.define tag as space d.2 closing) ∧ RefMention (l.reverse ++ [item]) k g d.1 := by
      intro h
      obtain ⟨k, tag, as, space, closing, h1, h2⟩ := ih d h
      refine ⟨k, tag, as, space, closing, ?_, refMention_snoc.mpr (Or.inl h2)⟩
      rw [List.getElem?_append_left (refMention_lt h2)]
      exact h1
    cases item with
    | define tag as space content closing =>
      simp only [refDefsStep, RefItem.mentions] at hd
      split at hd
      · rename_i hg
        rcases List.mem_cons.mp hd with rfl | hd
        · refine ⟨l.reverse.length, tag, as, space, closing, by simp, refMention_snoc.mpr (Or.inr ⟨rfl, ?_⟩)⟩
          rw [RefItem.mentions, hg]
        · exact old hd
      · exact old hd
    | use => exact old (by simpa [refDefsStep, RefItem.listGroup] using hd)
    | openList => exact old (by simpa [refDefsStep, RefItem.listGroup] using hd)
    | list =>
      simp only [refDefsStep] at hd
      split at hd
      · cases hd
      · exact old hd
    | closeList =>
      simp only [refDefsStep] at hd
      split at hd
      · cases hd
      · exact old hd

theorem mem_refEntries {g : Str} {items : List (RefItem Str)} {n : Nat} {content : Str} :
    (n, content) ∈ refEntries g items ↔ ∃ id, (refOrder g items)[n]? = some id ∧
      ((refDefs g items).find? fun d => decide (d.1 = id)) = some (id, content) := by
  unfold refEntries
  rw [List.mem_filterMap]
  constructor
  · rintro ⟨⟨id, m⟩, hm, he⟩
    rw [List.mem_zipIdx_iff_getElem?] at hm
    obtain ⟨d, hd, hp⟩ := Option.map_eq_some_iff.mp he
    simp only [Prod.mk.injEq] at hp hm
    obtain ⟨rfl, rfl⟩ := hp
    have : d.1 = id := by simpa using List.find?_some hd
    subst this
    exact ⟨d.1, hm, hd⟩
  · rintro ⟨id, h1, h2⟩
    refine ⟨(id, n), by rw [List.mem_zipIdx_iff_getElem?]; exact h1, ?_⟩
    simp [h2]

theorem refDefs_found {g : Str} {items : List (RefItem Str)} {k : Nat} {tag : Str} {as : RefAttrs} {space content closing : Str} {id : RefId}
    (hk : items[k]? = some (.define tag as space content closing)) (hm : RefMention items k g id)
    (hlater : ∀ j item, k < j → items[j]? = some item → item.listGroup ≠ some g ∧
      ((∃ tag as space content closing, item = .define tag as space content closing) → ¬ RefMention items j g id)) :
    ((refDefs g items).find? fun d => decide (d.1 = id)) = some (id, content) := by
  rw [← List.reverse_reverse items] at hk hm hlater ⊢
  generalize items.reverse = l at *
  induction l with
  | nil => simp at hk
  | cons item l ih =>
    rw [List.reverse_cons] at hk hm hlater ⊢
    rw [refDefs_append]
    rcases refMention_snoc.mp hm with h | ⟨rfl, h⟩
    · have hkl := refMention_lt h
      rw [List.getElem?_append_left hkl] at hk
      have hih := ih hk h (fun j item' hj hji => by
        have hjl := (List.getElem?_eq_some_iff.mp hji).1
        have := hlater j item' hj (by rw [List.getElem?_append_left hjl]; exact hji)
        exact ⟨this.1, fun hd hm' => this.2 hd (refMention_snoc.mpr (Or.inl hm'))⟩)
      have hlast := hlater l.reverse.length item hkl (by simp)
      cases item with
      | define tag' as' space' content' closing' =>
        simp only [refDefsStep, RefItem.mentions]
        split
        · rename_i hg
          rw [List.find?_cons_of_neg, hih]
          intro hid
          refine hlast.2 ⟨_, _, _, _, _, rfl⟩ (refMention_snoc.mpr (Or.inr ⟨rfl, ?_⟩))
          rw [RefItem.mentions, hg]
          exact congrArg (fun x => some (g, x)) (of_decide_eq_true hid)
        · exact hih
      | use => simpa [refDefsStep, RefItem.listGroup] using hih
      | openList => simpa [refDefsStep, RefItem.listGroup] using hih
      | list => simp only [refDefsStep]; rw [if_neg hlast.1]; exact hih
      | closeList => simp only [refDefsStep]; rw [if_neg hlast.1]; exact hih
    · simp only [List.getElem?_append_right (Nat.le_refl _), Nat.sub_self, List.getElem?_cons_zero, Option.some.injEq] at hk
      subst hk
      simp only [refDefsStep, h, if_pos]
      simp

end Verif.Model
