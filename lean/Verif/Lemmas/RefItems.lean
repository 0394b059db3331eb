import Verif.Lemmas.RefTags
import Verif.Lemmas.TokMonad

/-!
# Lemmas about the items of articles with references
-/

namespace Verif.Model
open Verif.Go Verif.Spec Verif.Lemmas
open scoped List

/-! ### The loop at a tag -/

section
variable (rec : Rec) {tag body : Str} (a r : Str) (st : RefState)

theorem take_four {tag : Str} (h : tag.length = 4) (s : Str) : (tag ++ s).take 4 = tag := by
  rw [← h, List.take_left]

theorem equals_of_lowered {t pat : Str} (h : lowered t = pat) (hp : lowered pat = pat) : equalsIgnoreCase t pat = true := by
  unfold equalsIgnoreCase
  rw [beq_iff_eq]
  show lowered t = lowered pat
  rw [h, hp]

theorem refLoop_tag (ht : lowered tag = b!"<ref" ∨ lowered tag = b!"</re") (hb : TagBody body) (fuel : Nat) :
    refLoop rec (fuel + 1) (a ++ (tag ++ body ++ 0x3E :: r)) a.length st =
      (refTag rec (a ++ (tag ++ body ++ 0x3E :: r)) a.length (a.length + 4 + body.length) st >>= fun x =>
        refLoop rec fuel x.1 (a.length + 1) x.2) := by
  have hl : tag.length = 4 := by
    rw [← lowered_length]
    rcases ht with h | h <;> rw [h] <;> rfl
  rw [refLoop, if_pos (by simp [hl]; omega)]
  simp only [List.drop_left]
  have hc : (equalsIgnoreCase ((tag ++ body ++ 0x3E :: r).take 4) b!"<ref" ||
      equalsIgnoreCase ((tag ++ body ++ 0x3E :: r).take 4) b!"</re") = true := by
    rw [List.append_assoc, take_four hl, Bool.or_eq_true]
    rcases ht with h | h
    · exact Or.inl (equals_of_lowered h (by decide))
    · exact Or.inr (equals_of_lowered h (by decide))
  rw [if_pos hc]
  have hf : findCloseIgnoreCase (a ++ (tag ++ body ++ 0x3E :: r)) (a.length + 4) b!"<ref" b!">" =
      some (a.length + 4 + body.length) := by
    unfold findCloseIgnoreCase findCloseWith
    rw [show a ++ (tag ++ body ++ 0x3E :: r) = (a ++ tag) ++ (body ++ 0x3E :: r) by simp,
      List.drop_left' (by simp [hl])]
    exact closeLoop_gt _ hb
  rw [hf]

theorem refTag_parts (hl : tag.length = 4) :
    refTag rec (a ++ (tag ++ body ++ 0x3E :: r)) a.length (a.length + 4 + body.length) st = (
      if isPlaceholderEnd (tag ++ body ++ b!">") || isPlaceholderShort (tag ++ body ++ b!">") then do
        let group ← TokM.lift (if st.placeholderGroup = [] then getGroupOrDefault (tag ++ body) else .ok st.placeholderGroup)
        let x ← refEndPlaceholder (a ++ (tag ++ body ++ 0x3E :: r)) a.length (a.length + 4 + body.length) group st
        pure (x.1, { st with contents := x.2, within := false, placeholderGroup := [] })
      else if isPlaceholderStart (tag ++ body ++ b!">") then do
        let group ← TokM.lift (getGroupOrDefault (tag ++ body))
        pure (a ++ r, { st with within := true, placeholderGroup := group })
      else do
        let name ← TokM.lift (getAttribute body b!"name")
        let group ← TokM.lift (getGroupOrDefault body)
        if (tag ++ body).getLast? = some 0x2F then
          namedReferenceUsage (a ++ (tag ++ body ++ 0x3E :: r)) a.length (a.length + 4 + body.length) name group st
        else
          match findCloseIgnoreCase (a ++ (tag ++ body ++ 0x3E :: r)) (a.length + 4 + body.length) b!"<ref" b!"</ref>" with
          | none => TokM.panic
          | some refEnd => referenceDefinition rec (a ++ (tag ++ body ++ 0x3E :: r)) a.length (a.length + 4 + body.length) refEnd name group st) := by
  have e1 : ((a ++ (tag ++ body ++ 0x3E :: r)).take (a.length + 4 + body.length + 1)).drop a.length = tag ++ body ++ b!">" := by
    rw [show a ++ (tag ++ body ++ 0x3E :: r) = (a ++ (tag ++ body ++ b!">")) ++ r by simp,
      List.take_left' (by simp [hl]; omega), List.drop_left]
  have e2 : ((a ++ (tag ++ body ++ 0x3E :: r)).take (a.length + 4 + body.length)).drop a.length = tag ++ body := by
    rw [show a ++ (tag ++ body ++ 0x3E :: r) = (a ++ (tag ++ body)) ++ 0x3E :: r by simp,
      List.take_left' (by simp [hl]; omega), List.drop_left]
  have e3 : ((a ++ (tag ++ body ++ 0x3E :: r)).take (a.length + 4 + body.length)).drop (a.length + 4) = body := by
    rw [show a ++ (tag ++ body ++ 0x3E :: r) = (a ++ tag ++ body) ++ 0x3E :: r by simp,
      List.take_left' (by simp [hl]; omega), List.drop_left' (by simp [hl])]
  have e4 : (a ++ (tag ++ body ++ 0x3E :: r)).take a.length = a := List.take_left
  have e5 : (a ++ (tag ++ body ++ 0x3E :: r)).drop (a.length + 4 + body.length + 1) = r := by
    rw [show a ++ (tag ++ body ++ 0x3E :: r) = (a ++ tag ++ body ++ [0x3E]) ++ r by simp,
      List.drop_left' (by simp [hl]; omega)]
  have e6 : (a ++ (tag ++ body ++ 0x3E :: r))[a.length + 4 + body.length - 1]? = (tag ++ body).getLast? := by
    rw [List.getLast?_eq_getElem?, List.getElem?_append_right (by omega),
      List.getElem?_append_left (by simp [hl]; omega)]
    congr 1
    simp [hl]; omega
  unfold refTag
  simp only [e1, e2, e3, e4, e5, e6]
  rfl

end

/-! ### Attributes -/

theorem attr_chars {a : RefAttr} (h : a.WellFormed) : ∀ c ∈ a.text, c ≠ 0x3C ∧ c ≠ 0x3E ∧ c ≠ 0x0A := by
  intro c hc
  unfold RefAttr.text at hc
  simp only [List.mem_append] at hc
  rcases hc with ((hc | hc) | hc) | hc
  · simp only [List.mem_singleton] at hc; subst hc; decide
  · exact ⟨(h.key c hc).2.2.1, (h.key c hc).2.2.2.2.1, (h.key c hc).2.2.2.2.2⟩
  · simp only [List.mem_singleton] at hc; subst hc; decide
  · split at hc
    · simp only [List.mem_append, List.mem_singleton] at hc
      rcases hc with (hc | hc) | hc
      · subst hc; decide
      · exact (h.value c hc).2
      · subst hc; decide
    · exact (h.value c hc).2

theorem attr_end {a : RefAttr} (h : a.WellFormed) : ∃ u c, a.text = u ++ [c] ∧ c ≠ 0x2F ∧ regexSpace c = false := by
  cases hq : a.quoted with
  | true =>
    refine ⟨b!" " ++ a.key ++ b!"=" ++ (b!"\"" ++ a.value), 0x22, ?_, by decide, by decide⟩
    simp [RefAttr.text, hq]
  | false =>
    have hne := (h.plain hq).1
    refine ⟨b!" " ++ a.key ++ b!"=" ++ a.value.dropLast, a.value.getLast hne, ?_, ?_, ?_⟩
    · simp only [RefAttr.text, hq, Bool.false_eq_true, if_false]
      rw [List.append_assoc, List.append_assoc, List.append_assoc, List.append_assoc, List.append_assoc,
        List.dropLast_append_getLast hne]
    · exact ((h.plain hq).2 _ (List.getLast_mem hne)).2.1
    · exact ((h.plain hq).2 _ (List.getLast_mem hne)).2.2

theorem attrs_chars {as : RefAttrs} (h : as.WellFormed) : ∀ c ∈ as.text, c ≠ 0x3C ∧ c ≠ 0x3E ∧ c ≠ 0x0A := by
  intro c hc
  unfold RefAttrs.text at hc
  obtain ⟨a, ha, hc⟩ := List.mem_flatMap.mp hc
  exact attr_chars (h.each a ha) c hc

theorem attrs_end {as : RefAttrs} (h : as.WellFormed) :
    as = [] ∨ ∃ u c, as.text = u ++ [c] ∧ c ≠ 0x2F ∧ regexSpace c = false := by
  rcases List.eq_nil_or_concat as with rfl | ⟨l, a, rfl⟩
  · exact Or.inl rfl
  · obtain ⟨u, c, hu, h1, h2⟩ := attr_end (h.each a (by simp))
    exact Or.inr ⟨RefAttrs.text l ++ u, c, by simp [RefAttrs.text, hu], h1, h2⟩

theorem attrs_head {as : RefAttrs} (space : Str) (hs : Spaces space) (trail : Str) (ht : trail = [] ∨ trail = b!"/") :
    ∀ c ∈ (as.text ++ space ++ trail).head?, c = 0x20 ∨ c = 0x2F := by
  intro c hc
  cases as with
  | nil =>
    simp only [RefAttrs.text, List.flatMap_nil, List.nil_append] at hc
    have := List.mem_of_mem_head? hc
    rcases List.mem_append.mp this with h | h
    · exact Or.inl (hs c h)
    · rcases ht with rfl | rfl
      · simp at h
      · simp at h; exact Or.inr h
  | cons a as =>
    simp [RefAttrs.text, RefAttr.text] at hc
    exact Or.inl hc.symm

theorem spaces_chars {space : Str} (hs : Spaces space) : ∀ c ∈ space, c ≠ 0x3C ∧ c ≠ 0x3E ∧ c ≠ 0x0A := by
  intro c hc
  rw [hs c hc]
  decide

theorem attrs_body {as : RefAttrs} (h : as.WellFormed) {space : Str} (hs : Spaces space) {trail : Str}
    (ht : trail = [] ∨ trail = b!"/") : TagBody (as.text ++ space ++ trail) ∧ (0x0A : Byte) ∉ as.text ++ space ++ trail := by
  have key : ∀ c ∈ as.text ++ space ++ trail, c ≠ 0x3C ∧ c ≠ 0x3E ∧ c ≠ 0x0A := by
    intro c hc
    simp only [List.mem_append] at hc
    rcases hc with (hc | hc) | hc
    · exact attrs_chars h c hc
    · exact spaces_chars hs c hc
    · rcases ht with rfl | rfl
      · simp at hc
      · simp at hc; subst hc; decide
  exact ⟨⟨fun hm => (key _ hm).1 rfl, fun hm => (key _ hm).2.1 rfl⟩, fun hm => (key _ hm).2.2 rfl⟩

/-- What the code uses as group. -/
def modelGroup (group : Str) : Str := if group ≠ [] then group else defaultReferenceGroup

theorem modelGroup_ne (g : Str) : modelGroup g ≠ [] := by
  unfold modelGroup
  split
  · assumption
  · decide

theorem modelGroup_inj {g g' : Str} (h : g ≠ defaultReferenceGroup) (h' : g' ≠ defaultReferenceGroup)
    (he : modelGroup g = modelGroup g') : g = g' := by
  unfold modelGroup at he
  split at he <;> split at he
  · exact he
  · exact absurd he h
  · exact absurd he.symm h'
  · rename_i h1 h2
    simp only [ne_eq, Decidable.not_not] at h1 h2
    rw [h1, h2]

section
variable {as : RefAttrs} (h : as.WellFormed) {space trail p : Str} (hs : Spaces space)
  (ht : trail = [] ∨ trail = b!"/") (hp : ∀ c ∈ p, c ≠ 0x20 ∧ c ≠ 0x22)
include h hs ht hp

omit h hp in
theorem trail_chars : ∀ c ∈ space ++ trail, c = 0x20 ∨ c = 0x2F := by
  intro c hc
  rcases List.mem_append.mp hc with hc | hc
  · exact Or.inl (hs c hc)
  · rcases ht with rfl | rfl
    · simp at hc
    · simp at hc; exact Or.inr hc

theorem getAttribute_name : getAttribute (p ++ (as.text ++ space ++ trail)) b!"name" = .ok (as.get b!"name") := by
  rw [List.append_assoc as.text]
  exact getAttribute_attrs (n := b!"name") ⟨by decide⟩ as h.each (fun a ha => (h.each a ha).name) h.once hp (trail_chars hs ht)

theorem getGroup_eq : getGroupOrDefault (p ++ (as.text ++ space ++ trail)) = .ok (modelGroup (as.get b!"group")) := by
  unfold getGroupOrDefault
  rw [List.append_assoc as.text,
    getAttribute_attrs (n := b!"group") ⟨by decide⟩ as h.each (fun a ha => (h.each a ha).group) h.once hp (trail_chars hs ht)]
  rfl

end

/-! ### The items -/

/-- The number that a mention of a reference gets; without name the next one. -/
def RefState.number (st : RefState) (group name : Str) : Nat :=
  (if name ≠ [] then assoc st.names (group, name) else none).getD (st.counter group)

/-- The state behind the definition of a reference. -/
def RefState.defined (st : RefState) (group name text : Str) : RefState :=
  { st with
    names := if name ≠ [] ∧ assoc st.names (group, name) = none then ((group, name), st.counter group) :: st.names
      else st.names
    contents := ((group, st.number group name), text) :: st.contents
    counters := (group, if st.number group name = st.counter group then st.counter group + 1 else st.counter group) :: st.counters }

/-- The state behind the usage of a reference. -/
def RefState.used (st : RefState) (group name : Str) : RefState :=
  match assoc st.names (group, name) with
  | some _ => st
  | none => { st with
      names := ((group, name), st.counter group) :: st.names
      counters := (group, st.counter group + 1) :: st.counters }

theorem tag_last {tag : Str} (ht : lowered tag = b!"<ref") {as : RefAttrs} (h : as.WellFormed) {space : Str} (hs : Spaces space) :
    (tag ++ (as.text ++ space)).getLast? ≠ some 0x2F := by
  intro hl
  rcases List.eq_nil_or_concat space with rfl | ⟨l, c, rfl⟩
  · rcases attrs_end h with rfl | ⟨u, c, hu, h1, _⟩
    · obtain ⟨a, b, c, d, rfl, _, _, _, h4⟩ := lowered_four ht
      simp [RefAttrs.text] at hl
      subst hl
      exact absurd h4 (by decide)
    · rw [hu] at hl
      simp [← List.append_assoc] at hl
      exact h1 hl
  · have := hs c (by simp)
    subst this
    simp [← List.append_assoc] at hl

section
variable (rec : Rec) (a r : Str) (st : RefState)

theorem refTag_define {tag : Str} {as : RefAttrs} {space inner closing : Str}
    (h : (RefItem.define tag as space inner closing).WellFormed) :
    refTag rec (a ++ (tag ++ (as.text ++ space) ++ 0x3E :: (inner ++ (closing ++ r)))) a.length
      (a.length + 4 + (as.text ++ space).length) st = (do
        let text ← rec inner
        let key ← refUsage st.within (st.number (modelGroup (as.get b!"group")) (as.get b!"name"))
        pure (a ++ key ++ r, st.defined (modelGroup (as.get b!"group")) (as.get b!"name") text)) := by
  obtain ⟨ht, has, hs, hcl, hno, hno'⟩ := h
  have hl : tag.length = 4 := by rw [← lowered_length, ht]; rfl
  have hcll : closing.length = 6 := by rw [← lowered_length, hcl]; rfl
  have hb := attrs_body has hs (trail := []) (Or.inl rfl)
  have hh := attrs_head (as := as) space hs [] (Or.inl rfl)
  rw [List.append_nil] at hb hh
  obtain ⟨p1, p2, p3⟩ := ref_not_placeholder ht hb.1 hh
  rw [refTag_parts rec a _ st hl, p1, p2, p3]
  simp only [Bool.or_self, Bool.false_eq_true, if_false]
  have hname := getAttribute_name (p := []) has hs (trail := []) (Or.inl rfl) (by simp)
  have hgroup := getGroup_eq (p := []) has hs (trail := []) (Or.inl rfl) (by simp)
  simp only [List.append_nil, List.nil_append] at hname hgroup
  rw [hname, hgroup, TokM.lift_ok, TokM.lift_ok]
  simp only [pure_bind]
  rw [if_neg (tag_last ht has hs)]
  have hf : findCloseIgnoreCase (a ++ (tag ++ (as.text ++ space) ++ 0x3E :: (inner ++ (closing ++ r))))
      (a.length + 4 + (as.text ++ space).length) b!"<ref" b!"</ref>" =
        some (a.length + 4 + (as.text ++ space).length + 1 + inner.length) := by
    unfold findCloseIgnoreCase findCloseWith
    rw [show a ++ (tag ++ (as.text ++ space) ++ 0x3E :: (inner ++ (closing ++ r))) =
      (a ++ tag ++ (as.text ++ space)) ++ (([0x3E] ++ inner) ++ (closing ++ r)) by simp,
      List.drop_left' (by simp [hl]; omega)]
    rw [closeLoop_first _ (by decide) (by decide) (by decide) (by decide) (by decide)]
    · simp; omega
    · intro hi
      exact hno (infix_behind (a := [0x3E]) (by decide) (by rw [lowered_append] at hi; exact hi))
    · intro hi
      exact hno' (infix_behind (a := [0x3E]) (by decide) (by rw [lowered_append] at hi; exact hi))
    · rw [lowered_append, hcl]; exact List.prefix_append _ _
    · rw [lowered_append, hcl]; simp [List.cons_prefix_cons]
  rw [hf]
  simp only
  unfold referenceDefinition
  have e1 : ((a ++ (tag ++ (as.text ++ space) ++ 0x3E :: (inner ++ (closing ++ r)))).take
      (a.length + 4 + (as.text ++ space).length + 1 + inner.length)).drop (a.length + 4 + (as.text ++ space).length + 1) = inner := by
    rw [show a ++ (tag ++ (as.text ++ space) ++ 0x3E :: (inner ++ (closing ++ r))) =
      (a ++ tag ++ (as.text ++ space) ++ [0x3E] ++ inner) ++ (closing ++ r) by simp,
      List.take_left' (by simp [hl]; omega), List.drop_left' (by simp [hl]; omega)]
  have e2 : (a ++ (tag ++ (as.text ++ space) ++ 0x3E :: (inner ++ (closing ++ r)))).take a.length = a := List.take_left
  have e3 : (a ++ (tag ++ (as.text ++ space) ++ 0x3E :: (inner ++ (closing ++ r)))).drop
      (a.length + 4 + (as.text ++ space).length + 1 + inner.length + 6) = r := by
    rw [show a ++ (tag ++ (as.text ++ space) ++ 0x3E :: (inner ++ (closing ++ r))) =
      (a ++ tag ++ (as.text ++ space) ++ [0x3E] ++ inner ++ closing) ++ r by simp,
      List.drop_left' (by simp [hl, hcll]; omega)]
  simp only [e1, e2, e3]
  congr 1
  funext text
  congr 1
  funext key
  unfold RefState.defined RefState.number
  by_cases hn : as.get b!"name" = []
  · simp [hn]
  · simp [hn]

theorem refTag_use {tag : Str} {as : RefAttrs} {space : Str} (h : (RefItem.use tag as space).WellFormed) :
    refTag rec (a ++ (tag ++ (as.text ++ space ++ b!"/") ++ 0x3E :: r)) a.length
      (a.length + 4 + (as.text ++ space ++ b!"/").length) st = (do
        let key ← refUsage st.within (st.number (modelGroup (as.get b!"group")) (as.get b!"name"))
        pure (a ++ key ++ r, st.used (modelGroup (as.get b!"group")) (as.get b!"name"))) := by
  obtain ⟨ht, has, hs, hn⟩ := h
  have hl : tag.length = 4 := by rw [← lowered_length, ht]; rfl
  have hb := attrs_body has hs (trail := b!"/") (Or.inr rfl)
  have hh := attrs_head (as := as) space hs b!"/" (Or.inr rfl)
  obtain ⟨p1, p2, p3⟩ := ref_not_placeholder ht hb.1 hh
  rw [refTag_parts rec a _ st hl, p1, p2, p3]
  simp only [Bool.or_self, Bool.false_eq_true, if_false]
  have hname := getAttribute_name (p := []) has hs (trail := b!"/") (Or.inr rfl) (by simp)
  have hgroup := getGroup_eq (p := []) has hs (trail := b!"/") (Or.inr rfl) (by simp)
  simp only [List.nil_append] at hname hgroup
  rw [hname, hgroup, TokM.lift_ok, TokM.lift_ok]
  simp only [pure_bind]
  rw [if_pos (by simp [← List.append_assoc])]
  unfold namedReferenceUsage
  have e2 : (a ++ (tag ++ (as.text ++ space ++ b!"/") ++ 0x3E :: r)).take a.length = a := List.take_left
  have e3 : (a ++ (tag ++ (as.text ++ space ++ b!"/") ++ 0x3E :: r)).drop
      (a.length + 4 + (as.text ++ space ++ b!"/").length + 1) = r := by
    rw [show a ++ (tag ++ (as.text ++ space ++ b!"/") ++ 0x3E :: r) =
      (a ++ tag ++ (as.text ++ space ++ b!"/") ++ [0x3E]) ++ r by simp, List.drop_left' (by simp [hl]; omega)]
  rw [if_pos hn]
  simp only [e2, e3]
  unfold RefState.number RefState.used
  rw [if_pos hn]
  cases assoc st.names (modelGroup (as.get b!"group"), as.get b!"name") <;> rfl

theorem split_tag {tag : Str} {x y : Str} (h : lowered tag = x ++ y) (hx : x.length = 4) :
    ∃ t t', tag = t ++ t' ∧ lowered t = x ∧ lowered t' = y := by
  refine ⟨tag.take 4, tag.drop 4, (List.take_append_drop _ _).symm, ?_, ?_⟩
  · rw [lowered_take, h, ← hx, List.take_left]
  · unfold lowered at h ⊢
    rw [List.map_drop, h, ← hx, List.drop_left]

theorem lowered_chars {t y : Str} (h : lowered t = y) {c d : Byte} (hd : d ∉ y) (hc : lowerByte c = d) : c ∉ t := by
  intro hm
  exact hd (by rw [← h, ← hc]; exact List.mem_map_of_mem hm)

/-- The state behind a list of references. -/
def RefState.listed (st : RefState) (group : Str) : RefState :=
  { st with
    contents := st.contents.filter fun e => ¬ (e.1.1 = group ∧ e.1.2 < st.counter group)
    within := false
    placeholderGroup := [] }

/-- The text with the list of references. -/
def refListed (a : Str) (group : Str) (st : RefState) : TokM Str := do
  let keys ← refDefinitions st.contents group (st.counter group) (st.counter group)
  pure (trimNewlines (trimNewlines a ++ b!"\n" ++ keys))

theorem refEnd_eq {tag body : Str} (hl : tag.length = 4) (group : Str) :
    (refEndPlaceholder (a ++ (tag ++ body ++ 0x3E :: r)) a.length (a.length + 4 + body.length) group st >>= fun x =>
      pure (x.1, { st with contents := x.2, within := false, placeholderGroup := [] })) =
    (do let out ← refListed a group st; pure (out ++ r, st.listed group)) := by
  unfold refEndPlaceholder refListed
  have e2 : (a ++ (tag ++ body ++ 0x3E :: r)).take a.length = a := List.take_left
  have e3 : (a ++ (tag ++ body ++ 0x3E :: r)).drop (a.length + 4 + body.length + 1) = r := by
    rw [show a ++ (tag ++ body ++ 0x3E :: r) = (a ++ tag ++ body ++ [0x3E]) ++ r by simp, List.drop_left' (by simp [hl]; omega)]
  simp only [e2, e3, bind_assoc, pure_bind]
  rfl

/-- `<references />` -/
theorem refLoop_list {tag : Str} {as : RefAttrs} {space : Str} (h : (RefItem.list tag as space).WellFormed)
    (hst : st.placeholderGroup = []) (fuel : Nat) :
    refLoop rec (fuel + 1) (a ++ ((RefItem.list tag as space).text ++ r)) a.length st = (do
      let out ← refListed a (modelGroup (as.get b!"group")) st
      refLoop rec fuel (out ++ r) (a.length + 1) (st.listed (modelGroup (as.get b!"group")))) := by
  obtain ⟨ht, has, hs⟩ := h
  have hb := attrs_body has hs (trail := []) (Or.inl rfl)
  rw [List.append_nil] at hb
  have hshort := references_short ht hb.1 hb.2
  obtain ⟨t, t', rfl, h1, h2⟩ := split_tag (x := b!"<ref") (y := b!"erences") ht rfl
  have hl : t.length = 4 := by rw [← lowered_length, h1]; rfl
  have hb' : TagBody (t' ++ (as.text ++ space) ++ b!"/") := by
    constructor
    · simp only [List.mem_append, not_or]
      exact ⟨⟨lowered_chars h2 (d := 0x3C) (by decide) (by decide), by simpa using hb.1.lt⟩, by decide⟩
    · simp only [List.mem_append, not_or]
      exact ⟨⟨lowered_chars h2 (d := 0x3E) (by decide) (by decide), by simpa using hb.1.gt⟩, by decide⟩
  have e : (RefItem.list (t ++ t') as space).text ++ r = t ++ (t' ++ (as.text ++ space) ++ b!"/") ++ 0x3E :: r := by
    simp [RefItem.text, List.append_assoc]
  have hgroup := getGroup_eq (p := t ++ t') has hs (trail := b!"/") (Or.inr rfl) (by
    intro c hc
    have hx : c ∈ t ++ t' → lowerByte c ∈ b!"<references" := fun hm => by
      rw [← ht]; exact List.mem_map_of_mem hm
    have := hx hc
    constructor <;> (rintro rfl; exact absurd this (by decide)))
  rw [e, refLoop_tag rec a r st (Or.inl h1) hb', refTag_parts rec a r st hl, if_pos, if_pos hst]
  · rw [show t ++ (t' ++ (as.text ++ space) ++ b!"/") = (t ++ t') ++ (as.text ++ space ++ b!"/") by simp, hgroup, TokM.lift_ok,
      pure_bind, show (t ++ t') ++ (as.text ++ space ++ b!"/") = t ++ (t' ++ (as.text ++ space) ++ b!"/") by simp, refEnd_eq a r st hl]
    simp only [bind_assoc, pure_bind]
  · rw [Bool.or_eq_true]
    refine Or.inr ?_
    rw [show t ++ (t' ++ (as.text ++ space) ++ b!"/") ++ b!">" = (t ++ t') ++ (as.text ++ space) ++ b!"/>" by simp]
    exact hshort

/-- `</references>` -/
theorem refLoop_closeList {tag group : Str} (h : (RefItem.closeList tag group).WellFormed) (fuel : Nat) :
    refLoop rec (fuel + 1) (a ++ ((RefItem.closeList tag group).text ++ r)) a.length st = (do
      let out ← refListed a (if st.placeholderGroup = [] then modelGroup [] else st.placeholderGroup) st
      refLoop rec fuel (out ++ r) (a.length + 1) (st.listed (if st.placeholderGroup = [] then modelGroup [] else st.placeholderGroup))) := by
  obtain ⟨ht, _⟩ := h
  have hend := references_end ht
  obtain ⟨t, t', rfl, h1, h2⟩ := split_tag (x := b!"</re") (y := b!"ferences") ht rfl
  have hl : t.length = 4 := by rw [← lowered_length, h1]; rfl
  have hb' : TagBody t' := ⟨lowered_chars h2 (d := 0x3C) (by decide) (by decide), lowered_chars h2 (d := 0x3E) (by decide) (by decide)⟩
  have e : (RefItem.closeList (t ++ t') group).text ++ r = t ++ t' ++ 0x3E :: r := by
    simp [RefItem.text, List.append_assoc]
  have hgroup : getGroupOrDefault (t ++ t') = .ok (modelGroup []) := by
    have hx : ∀ c ∈ t ++ t', lowerByte c ∈ b!"</references" := fun c hm => by
      rw [← ht]; exact List.mem_map_of_mem hm
    have h20 : (0x20 : Byte) ∉ t ++ t' := fun hm => absurd (hx _ hm) (by decide)
    have := getGroup_eq (as := []) (p := t ++ t') (space := []) (trail := [])
      ⟨by simp, by simp, by decide⟩ (by simp [Spaces]) (Or.inl rfl) (by
        intro c hc
        have := hx c hc
        constructor <;> (rintro rfl; exact absurd this (by decide)))
    simpa [RefAttrs.text, RefAttrs.get] using this
  rw [e, refLoop_tag rec a r st (Or.inr h1) hb', refTag_parts rec a r st hl, if_pos (by rw [hend]; rfl)]
  have hg : (if st.placeholderGroup = [] then getGroupOrDefault (t ++ t') else .ok st.placeholderGroup) =
      Res.ok (if st.placeholderGroup = [] then modelGroup [] else st.placeholderGroup) := by
    rw [hgroup]
    split <;> rfl
  rw [hg, TokM.lift_ok, pure_bind, refEnd_eq a r st hl]
  simp only [bind_assoc, pure_bind]

/-- `<references>` -/
theorem refLoop_openList {tag : Str} {as : RefAttrs} {space : Str} (h : (RefItem.openList tag as space).WellFormed) (fuel : Nat) :
    refLoop rec (fuel + 1) (a ++ ((RefItem.openList tag as space).text ++ r)) a.length st =
      refLoop rec fuel (a ++ r) (a.length + 1) { st with within := true, placeholderGroup := modelGroup (as.get b!"group") } := by
  obtain ⟨ht, has, hs⟩ := h
  have hb := attrs_body has hs (trail := []) (Or.inl rfl)
  rw [List.append_nil] at hb
  obtain ⟨p1, p2, p3⟩ := references_open ht hb.1 hb.2 (by
    intro u sp hu
    rcases attrs_end has with rfl | ⟨w, c, hw, hc1, hc2⟩
    · exfalso
      have : (0x2F : Byte) ∈ space := by
        have hu' : space = u ++ 0x2F :: sp := by simpa [RefAttrs.text] using hu
        rw [hu']; simp
      exact absurd (hs _ this) (by decide)
    · rw [hw, List.append_assoc, List.append_eq_append_iff] at hu
      rcases hu with ⟨x, rfl, hx⟩ | ⟨x, rfl, hx⟩
      · cases x with
        | nil =>
          simp only [List.nil_append, List.singleton_append, List.cons.injEq] at hx
          exact absurd hx.1 hc1
        | cons d x =>
          simp only [List.cons_append, List.cons.injEq] at hx
          have : (0x2F : Byte) ∈ space := by
            rw [show space = x ++ 0x2F :: sp by simpa using hx.2]; simp
          exact absurd (hs _ this) (by decide)
      · cases x with
        | nil =>
          simp only [List.nil_append, List.singleton_append, List.cons.injEq] at hx
          exact absurd hx.1.symm hc1
        | cons d x =>
          simp only [List.cons_append, List.cons.injEq] at hx
          exact ⟨c, by rw [hx.2]; simp, hc2⟩)
  obtain ⟨t, t', rfl, h1, h2⟩ := split_tag (x := b!"<ref") (y := b!"erences") ht rfl
  have hl : t.length = 4 := by rw [← lowered_length, h1]; rfl
  have hb' : TagBody (t' ++ (as.text ++ space)) := by
    constructor
    · simp only [List.mem_append, not_or]
      exact ⟨lowered_chars h2 (d := 0x3C) (by decide) (by decide), by simpa using hb.1.lt⟩
    · simp only [List.mem_append, not_or]
      exact ⟨lowered_chars h2 (d := 0x3E) (by decide) (by decide), by simpa using hb.1.gt⟩
  have e : (RefItem.openList (t ++ t') as space).text ++ r = t ++ (t' ++ (as.text ++ space)) ++ 0x3E :: r := by
    simp [RefItem.text, List.append_assoc]
  have hgroup := getGroup_eq (p := t ++ t') has hs (trail := []) (Or.inl rfl) (by
    intro c hc
    have hx : c ∈ t ++ t' → lowerByte c ∈ b!"<references" := fun hm => by
      rw [← ht]; exact List.mem_map_of_mem hm
    have := hx hc
    constructor <;> (rintro rfl; exact absurd this (by decide)))
  rw [List.append_nil] at hgroup
  have e2 : t ++ (t' ++ (as.text ++ space)) = t ++ t' ++ (as.text ++ space) := by simp
  rw [e, refLoop_tag rec a r st (Or.inl h1) hb', refTag_parts rec a r st hl, e2, p1, p2, p3, if_neg (by simp), if_pos rfl, hgroup,
    TokM.lift_ok]
  simp only [pure_bind]

/-- `<ref>…</ref>` -/
theorem refLoop_define {tag : Str} {as : RefAttrs} {space inner closing : Str}
    (h : (RefItem.define tag as space inner closing).WellFormed) (fuel : Nat) :
    refLoop rec (fuel + 1) (a ++ ((RefItem.define tag as space inner closing).text ++ r)) a.length st = (do
      let text ← rec inner
      let key ← refUsage st.within (st.number (modelGroup (as.get b!"group")) (as.get b!"name"))
      refLoop rec fuel (a ++ key ++ r) (a.length + 1) (st.defined (modelGroup (as.get b!"group")) (as.get b!"name") text)) := by
  have hb := attrs_body h.2.1 h.2.2.1 (trail := []) (Or.inl rfl)
  rw [List.append_nil] at hb
  have e : (RefItem.define tag as space inner closing).text ++ r = tag ++ (as.text ++ space) ++ 0x3E :: (inner ++ (closing ++ r)) := by
    simp [RefItem.text, List.append_assoc]
  rw [e, refLoop_tag rec a _ st (Or.inl h.1) hb.1, refTag_define rec a r st h]
  simp only [bind_assoc, pure_bind]

/-- `<ref />` -/
theorem refLoop_use {tag : Str} {as : RefAttrs} {space : Str} (h : (RefItem.use tag as space).WellFormed) (fuel : Nat) :
    refLoop rec (fuel + 1) (a ++ ((RefItem.use tag as space).text ++ r)) a.length st = (do
      let key ← refUsage st.within (st.number (modelGroup (as.get b!"group")) (as.get b!"name"))
      refLoop rec fuel (a ++ key ++ r) (a.length + 1) (st.used (modelGroup (as.get b!"group")) (as.get b!"name"))) := by
  have hb := attrs_body h.2.1 h.2.2.1 (trail := b!"/") (Or.inr rfl)
  have e : (RefItem.use tag as space).text ++ r = tag ++ (as.text ++ space ++ b!"/") ++ 0x3E :: r := by
    simp [RefItem.text, List.append_assoc]
  rw [e, refLoop_tag rec a _ st (Or.inl h.1) hb.1, refTag_use rec a r st h]
  simp only [bind_assoc, pure_bind]

end

end Verif.Model
