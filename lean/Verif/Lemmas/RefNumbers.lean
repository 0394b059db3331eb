import Verif.Lemmas.RefItems

/-!
# Lemmas about the numbers of references
-/

namespace Verif.Model
open Verif.Go Verif.Spec Verif.Lemmas
open scoped List

/-! ### One more item -/

/-- The new list of references behind a mention. -/
def mentioned (known : List RefId) (id : RefId) : List RefId := if id ∈ known then known else known ++ [id]

theorem refOrderFrom_append (group : Str) (l : List (RefItem α)) (item : RefItem α) (p : Nat) (known : List RefId) :
    refOrderFrom group p known (l ++ [item]) =
      match item.mentions (p + l.length) with
      | some (g, id) => if g = group then mentioned (refOrderFrom group p known l) id else refOrderFrom group p known l
      | none => refOrderFrom group p known l := by
  induction l generalizing p known with
  | nil =>
    simp only [List.nil_append, refOrderFrom, List.length_nil, Nat.add_zero, mentioned]
    cases item.mentions p with
    | none => rfl
    | some x =>
      simp only
      by_cases h1 : x.1 = group <;> by_cases h2 : x.2 ∈ known <;> simp [h1, h2]
  | cons i l ih =>
    rw [List.cons_append, refOrderFrom, ih]
    simp only [refOrderFrom, List.length_cons]
    rw [show p + 1 + l.length = p + (l.length + 1) by omega]

theorem refOrder_mention {group g : Str} {items : List (RefItem α)} {item : RefItem α} {id : RefId}
    (h : item.mentions items.length = some (g, id)) :
    refOrder group (items ++ [item]) = if g = group then mentioned (refOrder group items) id else refOrder group items := by
  unfold refOrder
  rw [refOrderFrom_append, Nat.zero_add, h]

theorem refOrder_other {group : Str} {items : List (RefItem α)} {item : RefItem α} (h : item.mentions items.length = none) :
    refOrder group (items ++ [item]) = refOrder group items := by
  unfold refOrder
  rw [refOrderFrom_append, Nat.zero_add, h]

theorem refDefsFrom_append (group : Str) (l : List (RefItem α)) (item : RefItem α) (p : Nat) (known : List (RefId × α)) :
    refDefsFrom group p known (l ++ [item]) = refDefsStep group (p + l.length) (refDefsFrom group p known l) item := by
  induction l generalizing p known with
  | nil => rfl
  | cons i l ih =>
    rw [List.cons_append, refDefsFrom, ih]
    simp only [refDefsFrom, List.length_cons]
    rw [show p + 1 + l.length = p + (l.length + 1) by omega]

theorem refDefs_append (group : Str) (items : List (RefItem α)) (item : RefItem α) :
    refDefs group (items ++ [item]) = refDefsStep group items.length (refDefs group items) item := by
  unfold refDefs
  rw [refDefsFrom_append, Nat.zero_add]

theorem refOpenFrom_append (l : List (RefItem α)) (item : RefItem α) (o : Option Str) :
    refOpenFrom o (l ++ [item]) =
      match item with
      | .openList _ attrs _ => some (attrs.get b!"group")
      | .closeList .. => none
      | _ => refOpenFrom o l := by
  induction l generalizing o with
  | nil => cases item <;> rfl
  | cons i l ih =>
    cases i <;> simp only [List.cons_append, refOpenFrom] <;> exact ih _

/-! ### The references of a group are different -/

theorem mentioned_nodup {known : List RefId} (h : known.Nodup) (id : RefId) : (mentioned known id).Nodup := by
  unfold mentioned
  split
  · exact h
  · rename_i hn
    rw [List.nodup_append]
    exact ⟨h, by simp, fun a ha b hb => by simp at hb; subst hb; exact fun e => hn (e ▸ ha)⟩

theorem mem_mentioned (known : List RefId) (id : RefId) : id ∈ mentioned known id := by
  unfold mentioned
  split
  · assumption
  · simp

theorem mentioned_prefix (known : List RefId) (id : RefId) : known <+: mentioned known id := by
  unfold mentioned
  split
  · exact List.prefix_refl _
  · exact List.prefix_append _ _

theorem refOrder_prefix_one (group : Str) (items : List (RefItem α)) (item : RefItem α) :
    refOrder group items <+: refOrder group (items ++ [item]) := by
  cases h : item.mentions items.length with
  | none => rw [refOrder_other h]; exact List.prefix_refl _
  | some x =>
    rw [refOrder_mention h]
    split
    · exact mentioned_prefix _ _
    · exact List.prefix_refl _

theorem refOrder_prefix (group : Str) (items more : List (RefItem α)) :
    refOrder group items <+: refOrder group (items ++ more) := by
  induction more generalizing items with
  | nil => simp
  | cons item more ih =>
    rw [show items ++ item :: more = (items ++ [item]) ++ more by simp]
    exact (refOrder_prefix_one group items item).trans (ih _)

theorem refOrder_good (group : Str) (items : List (RefItem α)) : (refOrder group items).Nodup ∧
    ∀ p, RefId.unnamed p ∈ refOrder group items → p < items.length := by
  rw [← List.reverse_reverse items]
  generalize items.reverse = l
  induction l with
  | nil => simp [refOrder, refOrderFrom]
  | cons item l ih =>
    rw [List.reverse_cons]
    cases h : item.mentions l.reverse.length with
    | none =>
      rw [refOrder_other h]
      exact ⟨ih.1, fun p hp => Nat.lt_of_lt_of_le (ih.2 p hp) (by simp)⟩
    | some x =>
      rw [refOrder_mention h]
      split
      · refine ⟨mentioned_nodup ih.1 _, fun p hp => ?_⟩
        unfold mentioned at hp
        split at hp
        · exact Nat.lt_of_lt_of_le (ih.2 p hp) (by simp)
        · rcases List.mem_append.mp hp with hp | hp
          · exact Nat.lt_of_lt_of_le (ih.2 p hp) (by simp)
          · simp only [List.mem_singleton] at hp
            cases item with
            | define tag as space content closing =>
              simp only [RefItem.mentions, Option.some.injEq] at h
              rw [← h] at hp
              simp only at hp
              split at hp
              · simp only [RefId.unnamed.injEq] at hp
                rw [hp]; simp
              · cases hp
            | use tag as space =>
              simp only [RefItem.mentions, Option.some.injEq] at h
              rw [← h] at hp
              cases hp
            | _ => cases h
      · exact ⟨ih.1, fun p hp => Nat.lt_of_lt_of_le (ih.2 p hp) (by simp)⟩

/-! ### The state of the loop -/

/-- The definition that belongs to a number. -/
def refDefAt (group : Str) (items : List (RefItem α)) (n : Nat) : Option α :=
  (refOrder group items)[n]?.bind fun id => ((refDefs group items).find? fun d => d.1 = id).map Prod.snd

inductive BothOrNone {α β : Type} (p : α → β → Prop) : Option α → Option β → Prop where
  | none : BothOrNone p none none
  | some {a : α} {b : β} (h : p a b) : BothOrNone p (some a) (some b)

/-- The variables of the loop behind the items. The tokenized contents of the references stand for the contents of the
items. -/
structure RefInv {α : Type} (P : α → Str → Prop) (items : List (RefItem α)) (st : RefState) : Prop where
  counter : ∀ g, g ≠ defaultReferenceGroup → st.counter (modelGroup g) = (refOrder g items).length
  names : ∀ g, g ≠ defaultReferenceGroup → ∀ name, name ≠ [] → assoc st.names (modelGroup g, name) =
    if .named name ∈ refOrder g items then some ((refOrder g items).idxOf (.named name)) else none
  contents : ∀ g, g ≠ defaultReferenceGroup → ∀ n, BothOrNone (fun text raw => P raw text)
    (assoc st.contents (modelGroup g, n)) (refDefAt g items n)
  within : st.within = (refOpen items).isSome
  group : st.placeholderGroup = ((refOpen items).map modelGroup).getD []

theorem assoc_cons {α β : Type} [DecidableEq α] (k k' : α) (v : β) (m : List (α × β)) :
    assoc ((k, v) :: m) k' = if k = k' then some v else assoc m k' := by
  unfold assoc
  rw [List.find?_cons]
  by_cases h : k = k' <;> simp [h]

theorem counter_cons {st : RefState} {m : List (Str × Nat)} {g : Str} {n : Nat} (h : st.counters = (g, n) :: m) (g' : Str) :
    st.counter g' = if g = g' then n else (assoc m g').getD 0 := by
  unfold RefState.counter
  rw [h, assoc_cons]
  split <;> rfl

theorem refInv_nil {α : Type} (P : α → Str → Prop) : RefInv P [] { contents := [], names := [], counters := [], within := false, placeholderGroup := [] } where
  counter := fun _ _ => rfl
  names := fun _ _ _ _ => by simp [assoc, refOrder, refOrderFrom]
  contents := fun _ _ _ => by simpa [assoc, refDefAt, refOrder, refOrderFrom] using BothOrNone.none
  within := rfl
  group := rfl

/-- The number is the position in the order of the first mentions. -/
theorem number_eq {α : Type} {P : α → Str → Prop} {items : List (RefItem α)} {st : RefState} (h : RefInv P items st) {item : RefItem α} {g name : Str} {id : RefId}
    (hg : g ≠ defaultReferenceGroup) (hm : item.mentions items.length = some (g, id))
    (hid : id = if name = [] then .unnamed items.length else .named name) :
    st.number (modelGroup g) name = (refOrder g (items ++ [item])).idxOf id ∧
    (st.number (modelGroup g) name = st.counter (modelGroup g) ↔ id ∉ refOrder g items) := by
  rw [refOrder_mention hm, if_pos rfl, RefState.number]
  have fresh : id ∉ refOrder g items → (refOrder g items ++ [id]).idxOf id = (refOrder g items).length := by
    intro hn
    rw [List.idxOf_append, if_neg hn]
    simp
  by_cases hn : name = []
  · have hnot : id ∉ refOrder g items := by
      rw [hid, if_pos hn]
      exact fun hp => Nat.lt_irrefl _ ((refOrder_good g items).2 _ hp)
    rw [if_neg (by simpa using hn), mentioned, if_neg hnot, fresh hnot, Option.getD_none, h.counter g hg]
    exact ⟨rfl, by simp [hnot]⟩
  · rw [if_pos hn, h.names g hg name hn]
    rw [if_neg hn] at hid
    rw [← hid]
    by_cases hk : id ∈ refOrder g items
    · rw [if_pos hk, mentioned, if_pos hk, Option.getD_some, h.counter g hg]
      have := List.idxOf_lt_length_of_mem hk
      exact ⟨rfl, by simp [hk]; omega⟩
    · rw [if_neg hk, mentioned, if_neg hk, fresh hk, Option.getD_none, h.counter g hg]
      exact ⟨rfl, by simp [hk]⟩

theorem refDefs_mem (group : Str) (items : List (RefItem α)) : ∀ d ∈ refDefs group items, d.1 ∈ refOrder group items := by
  rw [← List.reverse_reverse items]
  generalize items.reverse = l
  induction l with
  | nil => simp [refDefs, refDefsFrom]
  | cons item l ih =>
    rw [List.reverse_cons]
    intro d hd
    rw [refDefs_append] at hd
    have old : d ∈ refDefs group l.reverse → d.1 ∈ refOrder group (l.reverse ++ [item]) := fun h =>
      (refOrder_prefix_one group l.reverse item).subset (ih d h)
    unfold refDefsStep at hd
    split at hd
    · split at hd
      · rename_i g id hm
        split at hd
        · rename_i hg
          rcases List.mem_cons.mp hd with rfl | hd
          · rw [refOrder_mention hm, if_pos hg]
            exact mem_mentioned _ _
          · exact old hd
        · exact old hd
      · exact old hd
    · split at hd
      · exact absurd hd (by simp)
      · exact old hd

/-- A mention without a definition. -/
theorem refDefAt_same {group : Str} {items : List (RefItem α)} {item : RefItem α}
    (hd : refDefs group (items ++ [item]) = refDefs group items) (n : Nat) :
    refDefAt group (items ++ [item]) n = refDefAt group items n := by
  unfold refDefAt
  rw [hd]
  obtain ⟨x, hx⟩ := refOrder_prefix_one group items item
  by_cases hn : n < (refOrder group items).length
  · rw [← hx, List.getElem?_append_left hn]
  · rw [List.getElem?_eq_none (l := refOrder group items) (by omega)]
    cases h : (refOrder group (items ++ [item]))[n]? with
    | none => rfl
    | some id =>
      simp only [Option.bind_some, Option.bind_none, Option.map_eq_none_iff, List.find?_eq_none]
      intro d hm he
      simp only [decide_eq_true_eq] at he
      obtain ⟨k, hk, hk'⟩ := List.getElem_of_mem (refDefs_mem group items d hm)
      have h2 : (refOrder group (items ++ [item]))[k]? = some id := by
        rw [← hx, List.getElem?_append_left hk, List.getElem?_eq_getElem hk, hk', he]
      have h1 := (List.getElem?_inj (List.getElem?_eq_some_iff.mp h2).1 (refOrder_good group (items ++ [item])).1).mp (h2.trans h.symm)
      omega

/-- A definition. -/
theorem refDefAt_define {group : Str} {items : List (RefItem α)} {item : RefItem α} {id : RefId} {content : α}
    (hm : item.mentions items.length = some (group, id))
    (hd : refDefs group (items ++ [item]) = (id, content) :: refDefs group items) (n : Nat) :
    refDefAt group (items ++ [item]) n =
      if n = (refOrder group (items ++ [item])).idxOf id then some content else refDefAt group items n := by
  have ho : refOrder group (items ++ [item]) = mentioned (refOrder group items) id := by rw [refOrder_mention hm, if_pos rfl]
  have hmem : id ∈ refOrder group (items ++ [item]) := by rw [ho]; exact mem_mentioned _ _
  have hidx := List.getElem?_idxOf hmem
  split
  · rename_i hn
    subst hn
    unfold refDefAt
    rw [hidx, hd]
    simp
  · rename_i hn
    unfold refDefAt
    rw [hd]
    have hne : ∀ id', (refOrder group (items ++ [item]))[n]? = some id' → id ≠ id' := by
      rintro id' h rfl
      exact hn ((List.getElem?_inj (List.getElem?_eq_some_iff.mp h).1 (refOrder_good group (items ++ [item])).1).mp (h.trans hidx.symm))
    have hsame : (refOrder group (items ++ [item]))[n]? = (refOrder group items)[n]? := by
      by_cases hk : id ∈ refOrder group items
      · rw [ho, mentioned, if_pos hk]
      · have hi : (refOrder group (items ++ [item])).idxOf id = (refOrder group items).length := by
          rw [ho, mentioned, if_neg hk, List.idxOf_append, if_neg hk]
          simp
        rw [hi] at hn
        rw [ho, mentioned, if_neg hk]
        by_cases hl : n < (refOrder group items).length
        · rw [List.getElem?_append_left hl]
        · rw [List.getElem?_eq_none (by simp; omega), List.getElem?_eq_none (by omega)]
    cases h : (refOrder group (items ++ [item]))[n]? with
    | none => rw [← hsame, h]; rfl
    | some id' =>
      rw [← hsame, h]
      simp only [Option.bind_some]
      rw [List.find?_cons_of_neg (by simpa using hne id' h)]

/-! ### The items keep the relation -/

theorem position_snoc (l : List RefId) (x y : RefId) : (if x ∈ l ++ [y] then some ((l ++ [y]).idxOf x) else none) =
    if x ∈ l then some (l.idxOf x) else if x = y then some l.length else none := by
  by_cases h : x ∈ l
  · rw [if_pos (by simp [h]), if_pos h, List.idxOf_append, if_pos h]
  · by_cases h' : x = y
    · subst h'
      rw [if_pos (by simp), if_neg h, if_pos rfl, List.idxOf_append, if_neg h]
      simp
    · rw [if_neg (by simp [h, h']), if_neg h, if_neg h']

section
variable {α : Type} {P : α → Str → Prop} {items : List (RefItem α)} {st : RefState} (h : RefInv P items st)
include h

theorem refInv_define {tag : Str} {as : RefAttrs} {space closing text : Str} {content : α}
    (hw : as.WellFormed) (ht : P content text) :
    RefInv P (items ++ [.define tag as space content closing])
      (st.defined (modelGroup (as.get b!"group")) (as.get b!"name") text) := by
  generalize hitem : RefItem.define tag as space content closing = item at *
  have hg0 : as.get b!"group" ≠ defaultReferenceGroup := hw.notDefault
  generalize hgr : as.get b!"group" = group at *
  generalize hnm : as.get b!"name" = name at *
  obtain ⟨id, hid⟩ : ∃ id, id = if name = [] then RefId.unnamed items.length else RefId.named name := ⟨_, rfl⟩
  have hm : item.mentions items.length = some (group, id) := by
    subst hitem; simp only [RefItem.mentions, hgr, hnm, hid]
  obtain ⟨hnum, hnew⟩ := number_eq h hg0 hm hid
  have hother : ∀ g, g ≠ defaultReferenceGroup → g ≠ group → modelGroup group ≠ modelGroup g := fun g hg hne he =>
    hne (modelGroup_inj hg0 hg he).symm
  have hord : ∀ g, refOrder g (items ++ [item]) = if group = g then mentioned (refOrder g items) id else refOrder g items :=
    fun g => refOrder_mention hm
  have hopen : refOpen (items ++ [item]) = refOpen items := by
    unfold refOpen; rw [refOpenFrom_append]; subst hitem; rfl
  have hdefs : ∀ g, refDefs g (items ++ [item]) = if group = g then (id, content) :: refDefs g items else refDefs g items := by
    intro g
    rw [refDefs_append, refDefsStep.eq_def]
    subst hitem
    simp only [hm]
  refine ⟨?_, ?_, ?_, ?_, ?_⟩
  · intro g hg
    rw [counter_cons (st := st.defined (modelGroup group) name text) rfl, hord]
    by_cases hgg : group = g
    · subst hgg
      rw [if_pos rfl, if_pos rfl, h.counter group hg, ← h.counter group hg]
      by_cases hk : id ∈ refOrder group items
      · rw [if_neg (fun he => hnew.mp he hk), mentioned, if_pos hk, h.counter group hg]
      · rw [if_pos (hnew.mpr hk), mentioned, if_neg hk, h.counter group hg]
        simp
    · rw [if_neg (hother g hg (Ne.symm hgg)), if_neg hgg]
      exact h.counter g hg
  · intro g hg n hn
    show assoc (if name ≠ [] ∧ assoc st.names (modelGroup group, name) = none
      then ((modelGroup group, name), st.counter (modelGroup group)) :: st.names else st.names) (modelGroup g, n) = _
    rw [hord]
    by_cases hgg : group = g
    · subst hgg
      rw [if_pos rfl]
      by_cases hnn : name = []
      · -- without name
        rw [if_neg (by simp [hnn]), h.names group hg n hn]
        have hnot : RefId.named n ≠ id := by rw [hid, if_pos hnn]; simp
        by_cases hk : id ∈ refOrder group items
        · rw [mentioned, if_pos hk]
        · rw [mentioned, if_neg hk, position_snoc, if_neg hnot]
      · rw [if_neg hnn] at hid
        by_cases hk : id ∈ refOrder group items
        · have : assoc st.names (modelGroup group, name) ≠ none := by
            rw [h.names group hg name hnn, ← hid, if_pos hk]; simp
          rw [if_neg (fun he => this he.2), h.names group hg n hn, mentioned, if_pos hk]
        · have : assoc st.names (modelGroup group, name) = none := by
            rw [h.names group hg name hnn, ← hid, if_neg hk]
          rw [if_pos ⟨hnn, this⟩, assoc_cons, mentioned, if_neg hk, position_snoc]
          by_cases hnn' : name = n
          · subst hnn'
            rw [if_pos rfl, ← hid, if_neg hk, if_pos rfl, h.counter group hg]
          · rw [if_neg (by simpa using hnn'), h.names group hg n hn]
            have hnot : RefId.named n ≠ id := by rw [hid]; simp; exact Ne.symm hnn'
            rw [if_neg hnot]
    · rw [if_neg hgg, ← h.names g hg n hn]
      split
      · rw [assoc_cons, if_neg]
        intro he
        exact hother g hg (Ne.symm hgg) (by simpa using congrArg Prod.fst he)
      · rfl
  · intro g hg n
    show BothOrNone _ (assoc (((modelGroup group, st.number (modelGroup group) name), text) :: st.contents) (modelGroup g, n)) _
    rw [assoc_cons]
    by_cases hgg : group = g
    · subst hgg
      rw [refDefAt_define hm (by rw [hdefs, if_pos rfl]), hnum]
      by_cases hk : (refOrder group (items ++ [item])).idxOf id = n
      · rw [if_pos (by rw [hk]), if_pos hk.symm]
        exact .some ht
      · rw [if_neg (fun he => hk (by simpa using congrArg Prod.snd he)), if_neg (Ne.symm hk)]
        exact h.contents group hg n
    · rw [if_neg (fun he => hother g hg (Ne.symm hgg) (by simpa using congrArg Prod.fst he)),
        refDefAt_same (by rw [hdefs, if_neg hgg])]
      exact h.contents g hg n
  · rw [hopen]; exact h.within
  · rw [hopen]; exact h.group

theorem refInv_use {tag : Str} {as : RefAttrs} {space : Str} (hw : as.WellFormed) (hnn : as.get b!"name" ≠ []) :
    RefInv P (items ++ [.use tag as space]) (st.used (modelGroup (as.get b!"group")) (as.get b!"name")) := by
  generalize hitem : RefItem.use (α := α) tag as space = item at *
  have hg0 : as.get b!"group" ≠ defaultReferenceGroup := hw.notDefault
  generalize hgr : as.get b!"group" = group at *
  generalize hnm : as.get b!"name" = name at *
  have hm : item.mentions items.length = some (group, .named name) := by
    subst hitem; simp only [RefItem.mentions, hgr, hnm]
  have hother : ∀ g, g ≠ defaultReferenceGroup → g ≠ group → modelGroup group ≠ modelGroup g := fun g hg hne he =>
    hne (modelGroup_inj hg0 hg he).symm
  have hord : ∀ g, refOrder g (items ++ [item]) =
      if group = g then mentioned (refOrder g items) (.named name) else refOrder g items := fun g => refOrder_mention hm
  have hopen : refOpen (items ++ [item]) = refOpen items := by
    unfold refOpen; rw [refOpenFrom_append]; subst hitem; rfl
  have hdefs : ∀ g, refDefs g (items ++ [item]) = refDefs g items := by
    intro g
    rw [refDefs_append, refDefsStep.eq_def]
    subst hitem
    simp [RefItem.listGroup]
  have hcont : ∀ g n, refDefAt g (items ++ [item]) n = refDefAt g items n := fun g n => refDefAt_same (hdefs g) n
  have hnames := h.names group hg0 name hnn
  unfold RefState.used
  by_cases hk : RefId.named name ∈ refOrder group items
  · rw [if_pos hk] at hnames
    rw [hnames]
    have hord' : ∀ g, refOrder g (items ++ [item]) = refOrder g items := by
      intro g
      rw [hord]
      split
      · rename_i he; subst he; rw [mentioned, if_pos hk]
      · rfl
    exact ⟨fun g hg => by rw [hord']; exact h.counter g hg, fun g hg n hn => by rw [hord']; exact h.names g hg n hn,
      fun g hg n => by rw [hcont]; exact h.contents g hg n, by rw [hopen]; exact h.within, by rw [hopen]; exact h.group⟩
  · rw [if_neg hk] at hnames
    rw [hnames]
    refine ⟨?_, ?_, fun g hg n => by rw [hcont]; exact h.contents g hg n, by rw [hopen]; exact h.within, by rw [hopen]; exact h.group⟩
    · intro g hg
      rw [counter_cons rfl, hord]
      by_cases hgg : group = g
      · subst hgg
        rw [if_pos rfl, if_pos rfl, mentioned, if_neg hk, h.counter group hg]
        simp
      · rw [if_neg (hother g hg (Ne.symm hgg)), if_neg hgg]
        exact h.counter g hg
    · intro g hg n hn
      simp only
      rw [assoc_cons, hord]
      by_cases hgg : group = g
      · subst hgg
        rw [if_pos rfl, mentioned, if_neg hk, position_snoc]
        by_cases hnn' : name = n
        · subst hnn'
          rw [if_pos rfl, if_neg hk, if_pos rfl, h.counter group hg]
        · rw [if_neg (by simpa using hnn'), h.names group hg n hn]
          have hnot : RefId.named n ≠ RefId.named name := by simp; exact Ne.symm hnn'
          rw [if_neg hnot]
      · rw [if_neg (fun he => hother g hg (Ne.symm hgg) (by simpa using congrArg Prod.fst he)), if_neg hgg]
        exact h.names g hg n hn

theorem refInv_openList {tag : Str} {as : RefAttrs} {space : Str} :
    RefInv P (items ++ [.openList tag as space]) { st with within := true, placeholderGroup := modelGroup (as.get b!"group") } := by
  have hord : ∀ g, refOrder g (items ++ [.openList tag as space]) = refOrder g items := fun g => refOrder_other rfl
  have hdefs : ∀ g, refDefs g (items ++ [.openList tag as space]) = refDefs g items := by
    intro g
    rw [refDefs_append, refDefsStep.eq_def]
    simp [RefItem.listGroup]
  have hopen : refOpen (items ++ [.openList tag as space]) = some (as.get b!"group") := by
    unfold refOpen; rw [refOpenFrom_append]
  exact ⟨fun g hg => by rw [hord]; exact h.counter g hg, fun g hg n hn => by rw [hord]; exact h.names g hg n hn,
    fun g hg n => by rw [refDefAt_same (hdefs g)]; exact h.contents g hg n, by rw [hopen]; rfl, by rw [hopen]; rfl⟩

omit h in
theorem assoc_filter {α β : Type} [DecidableEq α] (m : List (α × β)) (p : α → Bool) (k : α) :
    assoc (m.filter fun e => p e.1) k = if p k = true then assoc m k else none := by
  induction m with
  | nil => simp [assoc]
  | cons e m ih =>
    rw [List.filter_cons]
    obtain ⟨a, b⟩ := e
    by_cases hp : p a = true
    · rw [if_pos hp, assoc_cons, assoc_cons, ih]
      by_cases hk : a = k
      · subst hk; simp [hp]
      · simp [hk]
    · rw [if_neg hp, ih, assoc_cons]
      by_cases hk : a = k
      · subst hk; simp [hp]
      · simp [hk]

theorem refInv_listed {item : RefItem α} {group : Str} (hg0 : group ≠ defaultReferenceGroup) (hl : item.listGroup = some group)
    (ho : refOpen (items ++ [item]) = none) : RefInv P (items ++ [item]) (st.listed (modelGroup group)) := by
  have hnone : item.mentions items.length = none := by cases item <;> first | rfl | cases hl
  have hord : ∀ g, refOrder g (items ++ [item]) = refOrder g items := fun g => refOrder_other hnone
  have hdefs : ∀ g, refDefs g (items ++ [item]) = if group = g then [] else refDefs g items := by
    intro g
    rw [refDefs_append, refDefsStep.eq_def]
    cases item <;> simp only [RefItem.listGroup, Option.some.injEq] at hl ⊢ <;> (cases hl <;> rfl)
  refine ⟨fun g hg => by rw [hord]; exact h.counter g hg, fun g hg n hn => by rw [hord]; exact h.names g hg n hn, ?_,
    by rw [ho]; rfl, by rw [ho]; rfl⟩
  intro g hg n
  have hc : assoc (st.listed (modelGroup group)).contents (modelGroup g, n) =
      if ¬ (modelGroup g = modelGroup group ∧ n < st.counter (modelGroup group)) then assoc st.contents (modelGroup g, n) else none := by
    have := assoc_filter st.contents (fun k => decide (¬ (k.1 = modelGroup group ∧ k.2 < st.counter (modelGroup group)))) (modelGroup g, n)
    simp only [decide_eq_true_eq] at this
    exact this
  rw [hc]
  by_cases hgg : group = g
  · subst hgg
    have : refDefAt group (items ++ [item]) n = none := by
      unfold refDefAt
      rw [hdefs, if_pos rfl]
      cases (refOrder group (items ++ [item]))[n]? <;> rfl
    rw [this]
    split
    · rename_i hn
      simp only [true_and, Nat.not_lt] at hn
      rw [h.counter group hg] at hn
      have hold : refDefAt group items n = none := by
        unfold refDefAt
        rw [List.getElem?_eq_none hn]; rfl
      have := h.contents group hg n
      rw [hold] at this
      exact this
    · exact .none
  · rw [if_pos (fun he => hgg (modelGroup_inj hg hg0 he.1).symm), refDefAt_same (by rw [hdefs, if_neg hgg])]
    exact h.contents g hg n

end

end Verif.Model
