import Verif.Lemmas.Placeholders

/-!
# Lemmas about the loop that replaces templates by placeholders
-/

namespace Verif.Model
open Verif.Go Verif.Spec Verif.Lemmas
open scoped List

theorem nested_close (d : NestedText) : ∀ (after : Str), d.WellFormed after → ∀ (i k : Nat),
    closeLoop false b!"{{" b!"}}" (d.text ++ after) 0 i k = closeLoop false b!"{{" b!"}}" after 0 (i + d.text.length) k := by
  induction d with
  | nil => intro after _ i k; simp [NestedText.text]
  | char c rest ih =>
    intro after h i k
    obtain ⟨h1, h2, h3⟩ := h
    rw [NestedText.text, List.cons_append, tclose_other _ _ _ h1 h2, ih after h3]
    congr 1
    simp; omega
  | template inner rest ih1 ih2 =>
    intro after h i k
    obtain ⟨h1, h2⟩ := h
    have e : (NestedText.template inner rest).text ++ after =
        0x7B :: 0x7B :: (inner.text ++ (b!"}}" ++ rest.text ++ after)) := by simp [NestedText.text]
    rw [e, tclose_open, ih1 _ h1]
    have e2 : b!"}}" ++ rest.text ++ after = 0x7D :: 0x7D :: (rest.text ++ after) := by simp
    rw [e2, tclose_close, if_neg (by omega), ih2 _ h2]
    congr 1
    simp [NestedText.text]; omega

/-- The text behind does not matter, except for its first character. -/
theorem nested_after (d : NestedText) : ∀ (x y : Str) (c : Byte), d.WellFormed (c :: x) → d.WellFormed (c :: y) := by
  have key : ∀ (p s x y : Str) (a c : Byte), p.length = 2 → p <+: a :: (s ++ c :: x) → p <+: a :: (s ++ c :: y) := by
    intro p s x y a c hl h
    have hp := List.prefix_iff_eq_take.mp h
    rw [hl] at hp
    rw [hp]
    cases s with
    | nil => exact ⟨y, by simp⟩
    | cons d s => exact ⟨s ++ c :: y, by simp⟩
  induction d with
  | nil => intros; trivial
  | char a rest ih =>
    intro x y c h
    exact ⟨fun hp => h.1 (key _ _ _ _ _ _ rfl hp), fun hp => h.2.1 (key _ _ _ _ _ _ rfl hp), ih _ _ _ h.2.2⟩
  | template inner rest ih1 ih2 =>
    intro x y c h
    exact ⟨ih1 _ _ _ h.1, ih2 _ _ _ h.2⟩

theorem nested_plain (hash : Str → Str) (d : NestedText) (after : Str) (h : ¬ b!"{{" <:+: d.text ++ after) :
    holedText (d.holed hash) = d.text ∧ d.templates = [] := by
  induction d with
  | nil => exact ⟨rfl, rfl⟩
  | char c rest ih =>
    obtain ⟨h1, h2⟩ := ih (fun hi => h (hi.trans (List.suffix_cons _ _).isInfix))
    refine ⟨?_, h2⟩
    rw [NestedText.holed, NestedText.text, ← h1]
    rfl
  | template inner rest =>
    refine absurd ?_ h
    exact ⟨[], inner.text ++ b!"}}" ++ rest.text ++ after, by simp [NestedText.text]⟩

theorem replaceFirst_at {old new : Str} (p x : Str) (h0 : old ≠ []) (h : ∀ j < p.length, ¬ old <+: (p ++ old ++ x).drop j) :
    replaceFirst old new (p ++ old ++ x) = p ++ new ++ x := by
  induction p with
  | nil =>
    cases old with
    | nil => exact absurd rfl h0
    | cons c old =>
      rw [List.nil_append, List.cons_append, replaceFirst, if_pos (by simp)]
      simp
  | cons c p ih =>
    have hc := h 0 (by simp)
    rw [List.cons_append, List.cons_append, replaceFirst, if_neg]
    · rw [ih (fun j hj => by have := h (j + 1) (by simpa using hj); simpa using this)]
      simp
    · rw [List.isPrefixOf_iff_prefix]
      simpa using hc

/-- No template begins in the first text. -/
def NoOpen (a b : Str) : Prop := ∀ j < a.length, ¬ b!"{{" <+: (a ++ b).drop j

theorem NoOpen.snoc {a b : Str} {c : Byte} (h : NoOpen a (c :: b)) (hc : ¬ b!"{{" <+: c :: b) : NoOpen (a ++ [c]) b := by
  intro j hj
  rw [List.append_assoc, List.singleton_append]
  rcases Nat.lt_or_ge j a.length with h' | h'
  · exact h j h'
  · have : j = a.length := by simp at hj; omega
    rw [this, List.drop_left]
    exact hc

/-- Something without braces behind the text. -/
theorem NoOpen.replace {a b u b' : Str} (h : NoOpen a b) (hu : (0x7B : Byte) ∉ u) (hne : u ≠ []) : NoOpen (a ++ u) b' := by
  intro j hj hp
  rw [List.append_assoc] at hp
  rcases Nat.lt_or_ge j a.length with h' | h'
  · rw [List.drop_append_of_le_length (by omega)] at hp
    apply h j h'
    rw [List.drop_append_of_le_length (by omega)]
    generalize hd : a.drop j = d at hp ⊢
    match d with
    | [] =>
      have : (a.drop j).length = 0 := by rw [hd]; rfl
      simp at this; omega
    | [x] =>
      obtain ⟨y, u, rfl⟩ := List.exists_cons_of_ne_nil hne
      have := (List.cons_prefix_cons.mp (List.cons_prefix_cons.mp (show (0x7B : Byte) :: 0x7B :: [] <+: x :: y :: _ from hp)).2).1
      simp [← this] at hu
    | x :: y :: d =>
      have h1 := List.cons_prefix_cons.mp (show (0x7B : Byte) :: 0x7B :: [] <+: x :: y :: _ from hp)
      have h2 := List.cons_prefix_cons.mp h1.2
      rw [← h1.1, ← h2.1]
      exact ⟨d ++ b, by simp⟩
  · rw [List.drop_append, List.drop_eq_nil_of_le h', List.nil_append] at hp
    have hlt : j - a.length < u.length := by simp at hj; omega
    rw [List.drop_append_of_le_length (by omega)] at hp
    have hd := List.drop_eq_getElem_cons hlt
    rw [hd] at hp
    have := (List.cons_prefix_cons.mp (show (0x7B : Byte) :: 0x7B :: [] <+: u[j - a.length] :: _ from hp)).1
    exact hu (this ▸ List.getElem_mem hlt)

section
variable (env : TemplateEnv)

/-- The loop gets from one position to another one. -/
def TReach (c : Str) (i : Nat) (st : TemplateState) (c' : Str) (i' : Nat) (st' : TemplateState) : Prop :=
  ∃ n N, ∀ fuel, N ≤ fuel → placeholderLoop env (fuel + n) c i st = placeholderLoop env fuel c' i' st'

variable {env}

theorem TReach.refl {c : Str} {i : Nat} {st : TemplateState} : TReach env c i st c i st := ⟨0, 0, fun _ _ => rfl⟩

theorem TReach.trans {c1 c2 c3 : Str} {i1 i2 i3 : Nat} {s1 s2 s3 : TemplateState} (h : TReach env c1 i1 s1 c2 i2 s2)
    (h' : TReach env c2 i2 s2 c3 i3 s3) : TReach env c1 i1 s1 c3 i3 s3 := by
  obtain ⟨n, N, h⟩ := h
  obtain ⟨n', N', h'⟩ := h'
  refine ⟨n' + n, max N N', fun fuel hf => ?_⟩
  rw [← Nat.add_assoc, h _ (by omega), h' _ (by omega)]

theorem TReach.step {c : Str} {i : Nat} {st : TemplateState} (h : ¬ b!"{{" <+: c.drop i) : TReach env c i st c (i + 1) st := by
  refine ⟨1, 1, fun fuel hf => ?_⟩
  obtain ⟨f, rfl⟩ := Nat.exists_eq_add_of_le' hf
  by_cases hi : i + 2 < c.length
  · rw [placeholderLoop, if_pos hi, if_neg]
    intro he
    apply h
    rw [← he]
    exact List.take_prefix _ _
  · rw [placeholderLoop, if_neg hi, placeholderLoop, if_neg (by omega)]

theorem TReach.skip {a u b : Str} {st : TemplateState} (h : NoOpen (a ++ u) b) :
    TReach env (a ++ u ++ b) a.length st (a ++ u ++ b) (a ++ u).length st := by
  induction u generalizing a with
  | nil => simpa using TReach.refl
  | cons c u ih =>
    have e : a ++ c :: u = (a ++ [c]) ++ u := by simp
    have := TReach.step (env := env) (c := a ++ c :: u ++ b) (i := a.length) (st := st) (h a.length (by simp))
    refine this.trans ?_
    rw [e] at h ⊢
    rw [show a.length + 1 = (a ++ [c]).length by simp]
    exact ih h

theorem TReach.finish {c : Str} {i : Nat} {st : TemplateState} {c' : Str} {i' : Nat} {st' : TemplateState} (h : TReach env c i st c' i' st')
    (hi : ¬ i' + 2 < c'.length) : ∃ N, ∀ fuel, N ≤ fuel → placeholderLoop env fuel c i st = some (.ok (c', st')) := by
  obtain ⟨n, N, h⟩ := h
  refine ⟨N + n + 1, fun fuel hf => ?_⟩
  obtain ⟨f, rfl⟩ := Nat.exists_eq_add_of_le' hf
  rw [show f + (N + n + 1) = (f + N + 1) + n by omega, h _ (by omega), placeholderLoop, if_neg hi]

end

/-- The state behind the evaluation of templates. -/
def evaluated (hash answer : Str → Str) (st : TemplateState) (ts : List NestedText) : TemplateState :=
  ts.foldl (fun st t => ⟨st.calls ++ [(t.request hash, hash (t.request hash))],
    setResult st.results (hash (t.request hash)) (answer (t.request hash))⟩) st

/-- The condition that the wiki has an answer for the templates of the text. -/
def Answered (env : TemplateEnv) (answer : Str → Str) (ts : List NestedText) : Prop :=
  ∀ t ∈ ts, env.evaluate (t.request env.hash) (env.hash (t.request env.hash)) = .ok (answer (t.request env.hash))

theorem holeText_noBrace {k : Str} (h : (0x7B : Byte) ∉ k) : (0x7B : Byte) ∉ holeText k := by
  unfold holeText
  simp only [List.mem_append, not_or]
  exact ⟨⟨by decide, h⟩, by decide⟩

theorem placeholderLoop_text {env : TemplateEnv} (hh : ∀ t, (0x7B : Byte) ∉ env.hash t) {answer : Str → Str} (d : NestedText) :
    ∀ (a after : Str) (st : TemplateState), d.WellFormed after → NoOpen a (d.text ++ after) → Answered env answer d.templates →
    TReach env (a ++ (d.text ++ after)) a.length st (a ++ (holedText (d.holed env.hash) ++ after)) (a ++ holedText (d.holed env.hash)).length
      (evaluated env.hash answer st d.templates) ∧ NoOpen (a ++ holedText (d.holed env.hash)) after := by
  induction d with
  | nil =>
    intro a after st _ hn _
    simp only [NestedText.text, NestedText.holed, NestedText.templates, holedText, List.flatMap_nil, List.append_nil, List.nil_append, evaluated,
      List.foldl_nil]
    exact ⟨TReach.refl, by simpa [NestedText.text] using hn⟩
  | char c rest ih =>
    intro a after st hw hn ha
    have hc : ¬ b!"{{" <+: c :: (rest.text ++ after) := hw.1
    have hstep := TReach.step (env := env) (c := a ++ ((NestedText.char c rest).text ++ after)) (i := a.length) (st := st) (by
      rw [List.drop_left]; exact hc)
    obtain ⟨h1, h2⟩ := ih (a ++ [c]) after st hw.2.2 (NoOpen.snoc hn hc) ha
    have e : (a ++ [c]) ++ (rest.text ++ after) = a ++ ((NestedText.char c rest).text ++ after) := by simp [NestedText.text]
    have e2 : (a ++ [c]) ++ holedText (rest.holed env.hash) = a ++ holedText ((NestedText.char c rest).holed env.hash) := by
      rw [NestedText.holed, holedText_cons, List.append_assoc]; rfl
    have e3 : (a ++ [c]).length = a.length + 1 := by simp
    have e4 : (a ++ [c]) ++ (holedText (rest.holed env.hash) ++ after) = a ++ (holedText ((NestedText.char c rest).holed env.hash) ++ after) := by
      rw [← List.append_assoc, e2, List.append_assoc]
    rw [e2, e3, e, e4] at h1
    rw [e2] at h2
    exact ⟨hstep.trans h1, h2⟩
  | template inner rest ih1 ih2 =>
    intro a after st hw hn ha
    obtain ⟨hw1, hw2⟩ := hw
    -- the inner templates
    have hwi : inner.WellFormed b!"}}" := nested_after inner (0x7D :: (rest.text ++ after)) [0x7D] 0x7D (by simpa using hw1)
    have hai : Answered env answer inner.templates := fun t ht => ha t (by simp [NestedText.templates, ht])
    obtain ⟨hi1, _⟩ := ih1 [] b!"}}" st hwi (fun j hj => absurd hj (by simp)) hai
    simp only [List.nil_append, List.length_nil] at hi1
    obtain ⟨Ni, hNi⟩ := hi1.finish (by simp)
    -- the template
    let key := env.hash (inner.request env.hash)
    let st1 := evaluated env.hash answer st (inner.templates ++ [inner])
    have hev := ha inner (by simp [NestedText.templates])
    have horig : (NestedText.template inner rest).text ++ after = (b!"{{" ++ inner.text ++ b!"}}") ++ (rest.text ++ after) := by
      simp [NestedText.text]
    have hlen : ¬ (a ++ ((NestedText.template inner rest).text ++ after)).length ≤ a.length + 2 := by
      simp [NestedText.text]
    have hfind : findClose (a ++ ((NestedText.template inner rest).text ++ after)) (a.length + 2) b!"{{" b!"}}" =
        some (a.length + 2 + inner.text.length) := by
      unfold findClose findCloseWith
      rw [← List.drop_drop, List.drop_left]
      have e : ((NestedText.template inner rest).text ++ after).drop 2 = inner.text ++ (b!"}}" ++ rest.text ++ after) := by
        simp [NestedText.text]
      rw [e, nested_close inner _ hw1]
      have e2 : b!"}}" ++ rest.text ++ after = 0x7D :: 0x7D :: (rest.text ++ after) := by simp
      rw [e2, tclose_close, if_pos rfl]
    have htake : ((a ++ ((NestedText.template inner rest).text ++ after)).take (a.length + 2 + inner.text.length + 2)).drop a.length =
        b!"{{" ++ inner.text ++ b!"}}" := by
      rw [horig, ← List.append_assoc a, List.take_left' (by simp; omega), List.drop_left]
    have hrep : replaceFirst (b!"{{" ++ inner.text ++ b!"}}") (templatePlaceholder key) (a ++ ((NestedText.template inner rest).text ++ after)) =
        a ++ holeText key ++ (rest.text ++ after) := by
      rw [horig, ← List.append_assoc, replaceFirst_at a (rest.text ++ after) (by simp), templatePlaceholder_eq]
      intro j hj hp
      apply hn j hj
      rw [horig, ← List.append_assoc]
      refine List.IsPrefix.trans ?_ hp
      exact ⟨inner.text ++ b!"}}", by simp⟩
    have hinner : ∀ fuel, Ni ≤ fuel → (if contains ((b!"{{" ++ inner.text ++ b!"}}").drop 2) b!"{{" then
          placeholderLoop env fuel ((b!"{{" ++ inner.text ++ b!"}}").drop 2) 0 st
        else some (.ok ((b!"{{" ++ inner.text ++ b!"}}").drop 2, st))) =
        some (.ok (holedText (inner.holed env.hash) ++ b!"}}", evaluated env.hash answer st inner.templates)) := by
      intro fuel hf
      have e : (b!"{{" ++ inner.text ++ b!"}}").drop 2 = inner.text ++ b!"}}" := by simp
      rw [e]
      split
      · exact hNi fuel hf
      · rename_i hc
        obtain ⟨p1, p2⟩ := nested_plain env.hash inner b!"}}" (by rw [← contains_eq_false_iff]; simpa using hc)
        rw [p1, p2]
        rfl
    have hstep : TReach env (a ++ ((NestedText.template inner rest).text ++ after)) a.length st
        (a ++ holeText key ++ (rest.text ++ after)) (a.length + 1) st1 := by
      refine ⟨1, Ni, fun fuel hf => ?_⟩
      rw [placeholderLoop, if_pos (by omega), if_pos (by rw [List.drop_left, horig]; rfl), hfind]
      simp only [htake, hinner fuel hf]
      have er : b!"{{" ++ (holedText (inner.holed env.hash) ++ b!"}}") = inner.request env.hash := by
        simp [NestedText.request]
      simp only [er]
      rw [hev]
      simp only
      rw [hrep]
      have est : st1 = ⟨(evaluated env.hash answer st inner.templates).calls ++ [(inner.request env.hash, env.hash (inner.request env.hash))],
          setResult (evaluated env.hash answer st inner.templates).results (env.hash (inner.request env.hash)) (answer (inner.request env.hash))⟩ := by
        show evaluated _ _ _ (_ ++ _) = _
        rw [evaluated, List.foldl_append]
        rfl
      rw [est]
    -- the placeholder
    have hno : NoOpen (a ++ holeText key) (rest.text ++ after) := NoOpen.replace hn (holeText_noBrace (hh _)) (by simp [holeText_eq])
    have hskip : TReach env (a ++ holeText key ++ (rest.text ++ after)) (a.length + 1) st1 (a ++ holeText key ++ (rest.text ++ after))
        (a ++ holeText key).length st1 := by
      obtain ⟨c, u, hu⟩ := List.exists_cons_of_ne_nil (show holeText key ≠ [] by simp [holeText_eq])
      have e : a ++ holeText key = (a ++ [c]) ++ u := by rw [hu]; simp
      rw [e] at hno ⊢
      have := TReach.skip (env := env) (st := st1) hno
      simpa using this
    obtain ⟨h1, h2⟩ := ih2 (a ++ holeText key) after st1 hw2 hno (fun t ht => ha t (by simp [NestedText.templates, ht]))
    have e2 : a ++ holeText key ++ holedText (rest.holed env.hash) = a ++ holedText ((NestedText.template inner rest).holed env.hash) := by
      rw [NestedText.holed, holedText_cons, List.append_assoc]; rfl
    rw [e2] at h2
    have e4 : a ++ holeText key ++ (holedText (rest.holed env.hash) ++ after) =
        a ++ (holedText ((NestedText.template inner rest).holed env.hash) ++ after) := by
      rw [← List.append_assoc, e2, List.append_assoc]
    rw [e2, e4] at h1
    refine ⟨(hstep.trans hskip).trans ?_, h2⟩
    have est : evaluated env.hash answer st1 rest.templates = evaluated env.hash answer st (NestedText.template inner rest).templates := by
      show evaluated _ _ (evaluated _ _ _ (_ ++ _)) _ = _
      rw [NestedText.templates, evaluated, evaluated, evaluated, ← List.foldl_append]
    rw [est] at h1
    exact h1

/-- A template without answer ends everything. -/
theorem placeholderLoop_fail {env : TemplateEnv} (hh : ∀ t, (0x7B : Byte) ∉ env.hash t) (d : NestedText) :
    ∀ (a after : Str) (st : TemplateState), d.WellFormed after → NoOpen a (d.text ++ after) →
    (∀ t ∈ d.templates, (∃ x, env.evaluate (t.request env.hash) (env.hash (t.request env.hash)) = .ok x) ∨
      env.evaluate (t.request env.hash) (env.hash (t.request env.hash)) = .err) →
    (∃ t ∈ d.templates, env.evaluate (t.request env.hash) (env.hash (t.request env.hash)) = .err) →
    ∃ N, ∀ fuel, N ≤ fuel → placeholderLoop env fuel (a ++ (d.text ++ after)) a.length st = some .err := by
  induction d with
  | nil => intro a after st _ _ _ ⟨t, ht, _⟩; cases ht
  | char c rest ih =>
    intro a after st hw hn ha hbad
    have hc : ¬ b!"{{" <+: c :: (rest.text ++ after) := hw.1
    obtain ⟨n, N, hstep⟩ := TReach.step (env := env) (c := a ++ ((NestedText.char c rest).text ++ after)) (i := a.length) (st := st) (by
      rw [List.drop_left]; exact hc)
    obtain ⟨N', h'⟩ := ih (a ++ [c]) after st hw.2.2 (NoOpen.snoc hn hc) ha hbad
    have e : (a ++ [c]) ++ (rest.text ++ after) = a ++ ((NestedText.char c rest).text ++ after) := by simp [NestedText.text]
    rw [e, show (a ++ [c]).length = a.length + 1 by simp] at h'
    refine ⟨max N N' + n, fun fuel hf => ?_⟩
    obtain ⟨f, rfl⟩ := Nat.exists_eq_add_of_le' (show n ≤ fuel by omega)
    rw [hstep f (by omega), h' f (by omega)]
  | template inner rest ih1 ih2 =>
    intro a after st hw hn ha hbad
    obtain ⟨hw1, hw2⟩ := hw
    have hwi : inner.WellFormed b!"}}" := nested_after inner (0x7D :: (rest.text ++ after)) [0x7D] 0x7D (by simpa using hw1)
    have horig : (NestedText.template inner rest).text ++ after = (b!"{{" ++ inner.text ++ b!"}}") ++ (rest.text ++ after) := by
      simp [NestedText.text]
    by_cases hall : ∀ t ∈ inner.templates ++ [inner], ∃ x, env.evaluate (t.request env.hash) (env.hash (t.request env.hash)) = .ok x
    · -- the template has an answer
      obtain ⟨answer, hans⟩ : ∃ answer : Str → Str, Answered env answer (inner.templates ++ [inner]) := by
        refine ⟨fun q => match env.evaluate q (env.hash q) with | .ok x => x | _ => [], fun t ht => ?_⟩
        obtain ⟨x, hx⟩ := hall t ht
        simp only [hx]
      obtain ⟨⟨n, N, hreach⟩, hno⟩ := placeholderLoop_text hh (.template inner .nil) a (rest.text ++ after) st
        ⟨by simpa [NestedText.text] using hw1, trivial⟩
        (by have e : (NestedText.template inner .nil).text ++ (rest.text ++ after) = (NestedText.template inner rest).text ++ after := by
              simp [NestedText.text]
            rw [e]; exact hn)
        (by simpa [NestedText.templates] using hans)
      have hbad' : ∃ t ∈ rest.templates, env.evaluate (t.request env.hash) (env.hash (t.request env.hash)) = .err := by
        obtain ⟨t, ht, he⟩ := hbad
        rcases List.mem_append.mp (show t ∈ (inner.templates ++ [inner]) ++ rest.templates from ht) with h | h
        · obtain ⟨x, hx⟩ := hall t h
          rw [hx] at he; cases he
        · exact ⟨t, h, he⟩
      obtain ⟨N', h'⟩ := ih2 _ after (evaluated env.hash answer st (NestedText.template inner .nil).templates) hw2 hno
        (fun t ht => ha t (by simp [NestedText.templates, ht])) hbad'
      refine ⟨max N N' + n, fun fuel hf => ?_⟩
      obtain ⟨f, rfl⟩ := Nat.exists_eq_add_of_le' (show n ≤ fuel by omega)
      have e1 : a ++ ((NestedText.template inner rest).text ++ after) = a ++ ((NestedText.template inner .nil).text ++ (rest.text ++ after)) := by
        simp [NestedText.text]
      rw [e1, hreach f (by omega)]
      have e2 := h' f (by omega)
      rw [List.append_assoc] at e2
      exact e2
    · have hfind : findClose (a ++ ((NestedText.template inner rest).text ++ after)) (a.length + 2) b!"{{" b!"}}" =
          some (a.length + 2 + inner.text.length) := by
        unfold findClose findCloseWith
        rw [← List.drop_drop, List.drop_left]
        have e : ((NestedText.template inner rest).text ++ after).drop 2 = inner.text ++ (b!"}}" ++ rest.text ++ after) := by
          simp [NestedText.text]
        rw [e, nested_close inner _ hw1]
        have e2 : b!"}}" ++ rest.text ++ after = 0x7D :: 0x7D :: (rest.text ++ after) := by simp
        rw [e2, tclose_close, if_pos rfl]
      have htake : ((a ++ ((NestedText.template inner rest).text ++ after)).take (a.length + 2 + inner.text.length + 2)).drop a.length =
          b!"{{" ++ inner.text ++ b!"}}" := by
        rw [horig, ← List.append_assoc a, List.take_left' (by simp; omega), List.drop_left]
      have hlen : ¬ (a ++ ((NestedText.template inner rest).text ++ after)).length ≤ a.length + 2 := by
        simp [NestedText.text]
      have e : (b!"{{" ++ inner.text ++ b!"}}").drop 2 = inner.text ++ b!"}}" := by simp
      by_cases hin : ∃ t ∈ inner.templates, env.evaluate (t.request env.hash) (env.hash (t.request env.hash)) = .err
      · -- an inner template fails
        obtain ⟨N, hN⟩ := ih1 [] b!"}}" st hwi (fun j hj => absurd hj (by simp))
          (fun t ht => ha t (by simp [NestedText.templates, ht])) hin
        simp only [List.nil_append, List.length_nil] at hN
        have hc : contains (inner.text ++ b!"}}") b!"{{" = true := by
          by_contra hc
          obtain ⟨_, p2⟩ := nested_plain env.hash inner b!"}}" (by rw [← contains_eq_false_iff]; simpa using hc)
          obtain ⟨t, ht, _⟩ := hin
          rw [p2] at ht; cases ht
        refine ⟨N + 1, fun fuel hf => ?_⟩
        obtain ⟨f, rfl⟩ := Nat.exists_eq_add_of_le' (show 1 ≤ fuel by omega)
        rw [placeholderLoop, if_pos (by omega), if_pos (by rw [List.drop_left, horig]; rfl), hfind]
        simp only [htake, e, hc, if_true, hN f (by omega)]
      · -- the template itself fails
        have hok : ∀ t ∈ inner.templates, ∃ x, env.evaluate (t.request env.hash) (env.hash (t.request env.hash)) = .ok x := by
          intro t ht
          rcases ha t (by simp [NestedText.templates, ht]) with h | h
          · exact h
          · exact absurd ⟨t, ht, h⟩ hin
        have hself : env.evaluate (inner.request env.hash) (env.hash (inner.request env.hash)) = .err := by
          rcases ha inner (by simp [NestedText.templates]) with h | h
          · refine absurd (fun t ht => ?_) hall
            rcases List.mem_append.mp ht with h' | h'
            · exact hok t h'
            · rw [List.mem_singleton] at h'; rw [h']; exact h
          · exact h
        obtain ⟨answer, hans⟩ : ∃ answer : Str → Str, Answered env answer inner.templates := by
          refine ⟨fun q => match env.evaluate q (env.hash q) with | .ok x => x | _ => [], fun t ht => ?_⟩
          obtain ⟨x, hx⟩ := hok t ht
          simp only [hx]
        obtain ⟨hi1, _⟩ := placeholderLoop_text hh inner [] b!"}}" st hwi (fun j hj => absurd hj (by simp)) hans
        simp only [List.nil_append, List.length_nil] at hi1
        obtain ⟨Ni, hNi⟩ := hi1.finish (by simp)
        refine ⟨Ni + 1, fun fuel hf => ?_⟩
        obtain ⟨f, rfl⟩ := Nat.exists_eq_add_of_le' (show 1 ≤ fuel by omega)
        have hinner : (if contains (inner.text ++ b!"}}") b!"{{" then placeholderLoop env f (inner.text ++ b!"}}") 0 st
            else some (.ok (inner.text ++ b!"}}", st))) =
            some (.ok (holedText (inner.holed env.hash) ++ b!"}}", evaluated env.hash answer st inner.templates)) := by
          split
          · exact hNi f (by omega)
          · rename_i hc
            obtain ⟨p1, p2⟩ := nested_plain env.hash inner b!"}}" (by rw [← contains_eq_false_iff]; simpa using hc)
            rw [p1, p2]
            rfl
        rw [placeholderLoop, if_pos (by omega), if_pos (by rw [List.drop_left, horig]; rfl), hfind]
        simp only [htake, e, hinner]
        have er : b!"{{" ++ (holedText (inner.holed env.hash) ++ b!"}}") = inner.request env.hash := by
          simp [NestedText.request]
        simp only [er]
        rw [hself]

/-! ### The answers -/

theorem mem_setResult {m : List (Str × Str)} {k v : Str} {e : Str × Str} :
    e ∈ setResult m k v ↔ e = (k, v) ∨ e ∈ m ∧ e.1 ≠ k := by
  simp [setResult]

theorem setResult_nodup {m : List (Str × Str)} (h : (m.map Prod.fst).Nodup) (k v : Str) : ((setResult m k v).map Prod.fst).Nodup := by
  unfold setResult
  rw [List.map_cons, List.nodup_cons]
  refine ⟨?_, h.sublist (List.filter_sublist.map _)⟩
  rw [List.mem_map]
  rintro ⟨e, he, hk⟩
  simp [hk] at he

theorem evaluated_calls (hash answer : Str → Str) (ts : List NestedText) (st : TemplateState) :
    (evaluated hash answer st ts).calls = st.calls ++ ts.map fun t => (t.request hash, hash (t.request hash)) := by
  induction ts generalizing st with
  | nil => simp [evaluated]
  | cons t ts ih =>
    have := ih ⟨st.calls ++ [(t.request hash, hash (t.request hash))], setResult st.results (hash (t.request hash)) (answer (t.request hash))⟩
    rw [show evaluated hash answer st (t :: ts) = evaluated hash answer ⟨_, _⟩ ts from rfl, this]
    simp

theorem evaluated_results (hash answer : Str → Str) (ts : List NestedText) : ∀ (st : TemplateState) (done : List NestedText),
    (∀ t ∈ done ++ ts, ∀ t' ∈ done ++ ts, hash (t.request hash) = hash (t'.request hash) → t.request hash = t'.request hash) →
    (st.results.map Prod.fst).Nodup → (∀ e, e ∈ st.results ↔ ∃ t ∈ done, e = (hash (t.request hash), answer (t.request hash))) →
    ((evaluated hash answer st ts).results.map Prod.fst).Nodup ∧
    ∀ e, e ∈ (evaluated hash answer st ts).results ↔ ∃ t ∈ done ++ ts, e = (hash (t.request hash), answer (t.request hash)) := by
  induction ts with
  | nil => intro st done _ h1 h2; exact ⟨h1, by simpa [evaluated] using h2⟩
  | cons t ts ih =>
    intro st done hinj h1 h2
    have := ih ⟨st.calls ++ [(t.request hash, hash (t.request hash))], setResult st.results (hash (t.request hash)) (answer (t.request hash))⟩
      (done ++ [t]) (by simpa [List.append_assoc] using hinj) (setResult_nodup h1 _ _) (fun e => by
        rw [mem_setResult, h2]
        constructor
        · rintro (rfl | ⟨⟨t', ht', rfl⟩, _⟩)
          · exact ⟨t, by simp, rfl⟩
          · exact ⟨t', by simp [ht'], rfl⟩
        · rintro ⟨t', ht', rfl⟩
          by_cases hk : hash (t'.request hash) = hash (t.request hash)
          · left
            have := hinj t' (by rcases List.mem_append.mp ht' with h | h <;> simp at h ⊢ <;> tauto) t (by simp) hk
            rw [this]
          · refine Or.inr ⟨⟨t', ?_, rfl⟩, hk⟩
            rcases List.mem_append.mp ht' with h | h
            · exact h
            · simp at h; subst h; exact absurd rfl hk)
    rw [show evaluated hash answer st (t :: ts) = evaluated hash answer ⟨_, _⟩ ts from rfl]
    simpa [List.append_assoc] using this

theorem Resolved.of_holes {answers : List (Str × Str)} {ps : List HoledPiece}
    (h : ∀ k, .hole k ∈ ps → ∃ inner y, (k, holedText inner) ∈ answers ∧ Resolved answers inner y) : ∃ x, Resolved answers ps x := by
  induction ps with
  | nil => exact ⟨_, .nil⟩
  | cons p ps ih =>
    obtain ⟨x, hx⟩ := ih (fun k hk => h k (List.mem_cons_of_mem _ hk))
    cases p with
    | char c => exact ⟨_, .char c hx⟩
    | hole k =>
      obtain ⟨inner, y, h1, h2⟩ := h k List.mem_cons_self
      exact ⟨_, .hole k h1 h2 hx⟩

/-- Each placeholder of the text has an answer without placeholders. -/
theorem holes_resolved {hash answer : Str → Str} {answers : List (Str × Str)} (d : NestedText)
    (ha : ∀ t ∈ d.templates, (hash (t.request hash), answer (t.request hash)) ∈ answers ∧
      ∃ ps, answer (t.request hash) = holedText ps ∧ ∀ k, .hole k ∈ ps → .hole k ∈ t.holed hash) :
    ∀ k, .hole k ∈ d.holed hash → ∃ inner y, (k, holedText inner) ∈ answers ∧ Resolved answers inner y := by
  induction d with
  | nil => intro k hk; cases hk
  | char c rest ih =>
    intro k hk
    rcases List.mem_cons.mp hk with h | h
    · cases h
    · exact ih ha k h
  | template inner rest ih1 ih2 =>
    intro k hk
    rcases List.mem_cons.mp hk with h | h
    · cases h
      obtain ⟨h1, ps, h2, h3⟩ := ha inner (by simp [NestedText.templates])
      have hin := ih1 (fun t ht => ha t (by simp [NestedText.templates, ht]))
      obtain ⟨y, hy⟩ := Resolved.of_holes (answers := answers) (ps := ps) (fun k hk => hin k (h3 k hk))
      exact ⟨ps, y, by rw [← h2]; exact h1, hy⟩
    · exact ih2 (fun t ht => ha t (by simp [NestedText.templates, ht])) k h

end Verif.Model
