import Verif.Lemmas.Padding
import Verif.Lemmas.WikiLinks
import Verif.Model.Tables

/-! The attributes of cells. -/

namespace Verif.Model
open Verif.Go Verif.Spec
open scoped List

/-- An occurrence of the word `w ++ [e]` cannot begin in `x` and end in `y`. -/
theorem not_prefix_straddle {w x y : Str} {e : Byte} (h : ¬ w ++ [e] <:+: x) (hy : e ∉ y.take w.length) {x' : Str}
    (hx' : x' ≠ []) (hs : x' <:+ x) : ¬ w ++ [e] <+: x' ++ y := by
  intro hp
  rcases Nat.lt_or_ge x'.length (w ++ [e]).length with hl | hl
  · obtain ⟨y', hy'⟩ : x' <+: w ++ [e] := List.prefix_of_prefix_length_le (List.prefix_append _ _) hp (by omega)
    rw [← hy'] at hp
    have hpy := (List.prefix_append_right_inj x').mp hp
    have hlen := congrArg List.length hy'
    have h1 := List.length_pos_of_ne_nil hx'
    simp only [List.length_append, List.length_cons, List.length_nil] at hlen hl
    have hmem : e ∈ y' := by
      have hl' : (x' ++ y').getLast? = some e := by rw [hy']; simp
      have hne : y' ≠ [] := by rintro rfl; simp at hlen; omega
      rw [List.getLast?_append_of_ne_nil _ hne] at hl'
      exact List.mem_of_getLast? hl'
    refine hy ?_
    have hle : y'.length ≤ w.length := by omega
    have hpt : y' <+: y.take w.length := by
      rw [List.prefix_take_iff]
      exact ⟨hpy, hle⟩
    exact hpt.sublist.mem hmem
  · exact h ((List.prefix_of_prefix_length_le hp (List.prefix_append _ _) hl).isInfix.trans hs.isInfix)

theorem findSpans_skip (k : Nat) (s : Str) : findSpans s k = findSpans (s.drop k) 0 := by
  induction s generalizing k with
  | nil => cases k <;> simp [findSpans]
  | cons c t ih =>
    cases k with
    | zero => rfl
    | succ k => rw [findSpans, ih]; rfl

theorem matchSpan_none {s : Str} (h1 : ¬ b!"colspan=" <+: s) (h2 : ¬ b!"rowspan=" <+: s) : matchSpan s = none := by
  have e1 : hasPrefix s b!"colspan=" = false := by rw [← Bool.not_eq_true, hasPrefix_iff]; exact h1
  have e2 : hasPrefix s b!"rowspan=" = false := by rw [← Bool.not_eq_true, hasPrefix_iff]; exact h2
  simp [matchSpan, e1, e2]

theorem findSpans_front {x y : Str} (h : ∀ x' : Str, x' ≠ [] → x' <:+ x → ¬ b!"colspan=" <+: x' ++ y ∧ ¬ b!"rowspan=" <+: x' ++ y) :
    findSpans (x ++ y) 0 = findSpans y 0 := by
  induction x with
  | nil => rfl
  | cons c x ih =>
    have := h (c :: x) (by simp) List.suffix_rfl
    rw [List.cons_append] at this ⊢
    rw [findSpans, matchSpan_none this.1 this.2]
    exact ih fun x' h1 h2 => h x' h1 (h2.trans (List.suffix_cons _ _))

theorem findTextAlign_front {x y : Str} (h : ∀ x' : Str, x' ≠ [] → x' <:+ x → ¬ b!"text-align:" <+: x' ++ y) :
    findTextAlign (x ++ y) = findTextAlign y := by
  induction x with
  | nil => rfl
  | cons c x ih =>
    have := h (c :: x) (by simp) List.suffix_rfl
    have e1 : hasPrefix (c :: x ++ y) b!"text-align:" = false := by rw [← Bool.not_eq_true, hasPrefix_iff]; exact this
    rw [List.cons_append] at e1 ⊢
    rw [findTextAlign, e1]
    exact ih fun x' h1 h2 => h x' h1 (h2.trans (List.suffix_cons _ _))

theorem code_take_equals (a : TableAttr) (y : Str) : (0x3D : Byte) ∉ (a.code ++ y).take 7 := by
  cases a with
  | span row number quoted => cases row <;> simp [TableAttr.code]
  | align value => simp [TableAttr.code]

/-- Other attributes in front of an attribute that is kept. -/
theorem other_spans {x : Str} (h : OtherAttributes x) (y : Str) (hy : y = [] ∨ ∃ (a : TableAttr) (z : Str), y = a.code ++ z) :
    findSpans (x ++ y) 0 = findSpans y 0 := by
  have hy : (0x3D : Byte) ∉ y.take 7 := by
    rcases hy with rfl | ⟨a, z, rfl⟩
    · simp
    · exact code_take_equals a z
  exact findSpans_front fun x' h1 h2 => ⟨not_prefix_straddle (w := b!"colspan") h.1 hy h1 h2,
    not_prefix_straddle (w := b!"rowspan") h.2.1 hy h1 h2⟩

theorem other_align {x : Str} (h : OtherAttributes x) (y : Str) (hy : y = [] ∨ ∃ (a : TableAttr) (z : Str), y = a.code ++ z) :
    findTextAlign (x ++ y) = findTextAlign y := by
  refine findTextAlign_front fun x' h1 h2 => ?_
  rcases hy with rfl | ⟨a, z, rfl⟩
  · exact not_prefix_straddle (w := b!"text-align") h.2.2 (by simp) h1 h2
  · cases a with
    | align value => exact not_prefix_straddle (w := b!"text-align") h.2.2 (by simp [TableAttr.code]) h1 h2
    | span row number quoted =>
      intro hp
      obtain ⟨u, v, hu, e⟩ : ∃ u v : Str, (0x3A : Byte) ∉ u ∧ (TableAttr.span row number quoted).code ++ z = u ++ 0x3D :: v := by
        cases row
        · exact ⟨b!"colspan", _, by decide, rfl⟩
        · exact ⟨b!"rowspan", _, by decide, rfl⟩
      rw [e, ← List.append_assoc] at hp
      have := prefix_of_prefix_sep (by decide) hp
      exact not_prefix_straddle (w := b!"text-align") h.2.2 (fun hm => hu (List.mem_of_mem_take hm)) h1 h2 this

theorem hasPrefix_single {x c : Byte} (t : Str) (h : c ≠ x) : hasPrefix (c :: t) [x] = false := by
  rw [← Bool.not_eq_true, hasPrefix_iff, List.cons_prefix_cons]
  exact fun hp => h hp.1.symm

theorem digits_stop {number r : Str} (h : ∀ c ∈ number, digit c = true) (hr : ∀ c ∈ r.head?, digit c = false) :
    (number ++ r).takeWhile digit = number := by
  induction number with
  | nil =>
    cases r with
    | nil => rfl
    | cons c r => simp [hr c (by simp)]
  | cons c number ih =>
    rw [List.cons_append, List.takeWhile_cons, h c (by simp)]
    simp [ih fun c hc => h c (by simp [hc])]

theorem matchSpan_code {row quoted : Bool} {number next : Str} (h : (TableAttr.span row number quoted).WellFormed next) (z : Str)
    (hz : next = [] → z = [] ∨ ∃ (a : TableAttr) (z' : Str), z = a.code ++ z') :
    matchSpan ((TableAttr.span row number quoted).code ++ (next ++ z)) = some (TableAttr.span row number quoted).code := by
  obtain ⟨h1, h2, h3⟩ := h
  have hq : hasPrefix number b!"\"" = false := by
    cases number with
    | nil => rfl
    | cons c t =>
      have := h2 c (by simp)
      have hc : c ≠ 0x22 := by rintro rfl; simp [digit] at this
      exact hasPrefix_single _ hc
  have hfollow : quoted = false → ∀ c ∈ (next ++ z).head?, digit c = false ∧ c ≠ 0x22 := by
    intro hq c hc
    cases next with
    | cons d t => exact h3 hq c hc
    | nil =>
      rcases hz rfl with rfl | ⟨a, z', rfl⟩
      · simp at hc
      · cases a with
        | align v => simp [TableAttr.code] at hc; subst hc; decide
        | span row n q => cases row <;> simp [TableAttr.code] at hc <;> subst hc <;> decide
  have key : ∀ pre : Str, pre.length = 8 → (hasPrefix (pre ++ ((if quoted then b!"\"" ++ number ++ b!"\"" else number) ++ (next ++ z))) b!"colspan=" ||
      hasPrefix (pre ++ ((if quoted then b!"\"" ++ number ++ b!"\"" else number) ++ (next ++ z))) b!"rowspan=") = true →
      matchSpan (pre ++ ((if quoted then b!"\"" ++ number ++ b!"\"" else number) ++ (next ++ z))) =
        some (pre ++ if quoted then b!"\"" ++ number ++ b!"\"" else number) := by
    intro pre hp hpre
    rw [matchSpan, if_pos hpre]
    have hd : ∀ s : Str, (pre ++ s).drop 8 = s := fun s => by rw [← hp, List.drop_left]
    have ht : ∀ s : Str, (pre ++ s).take 8 = pre := fun s => by rw [← hp, List.take_left]
    cases quoted with
    | true =>
      simp only [if_true, hd, ht]
      have e1 : hasPrefix (b!"\"" ++ number ++ b!"\"" ++ (next ++ z)) b!"\"" = true := by rw [hasPrefix_iff]; simp
      have e2 : (b!"\"" ++ number ++ b!"\"" ++ (next ++ z)).drop (b!"\"" : Str).length = number ++ (b!"\"" ++ (next ++ z)) := by simp
      have e3 := digits_stop h2 (r := b!"\"" ++ (next ++ z)) (by simp [digit])
      have e4 : (b!"\"" ++ number ++ b!"\"" ++ (next ++ z)).drop ((b!"\"" : Str).length + number.length) = b!"\"" ++ (next ++ z) := by
        rw [List.append_assoc, ← List.length_append, List.drop_left]
      have e5 : hasPrefix (b!"\"" ++ (next ++ z)) b!"\"" = true := by rw [hasPrefix_iff]; simp
      simp only [e1, if_true, e2, e3, e4, e5]
      rw [if_neg h1]
      simp
    | false =>
      simp only [Bool.false_eq_true, if_false, hd, ht]
      have hf := hfollow rfl
      have e1 : hasPrefix (number ++ (next ++ z)) b!"\"" = false := by
        cases number with
        | nil => exact absurd rfl h1
        | cons c t =>
          have := h2 c (by simp)
          exact hasPrefix_single _ (by rintro rfl; simp [digit] at this)
      have e3 := digits_stop h2 (r := next ++ z) (fun c hc => (hf c hc).1)
      have e5 : hasPrefix (next ++ z) b!"\"" = false := by
        cases hnz : next ++ z with
        | nil => rfl
        | cons c t =>
          have := (hf c (by rw [hnz]; rfl)).2
          exact hasPrefix_single _ this
      simp only [e1, Bool.false_eq_true, if_false, List.length_nil, List.drop_zero, e3, Nat.zero_add, List.drop_left, e5]
      rw [if_neg h1]
      simp
  cases row
  · have := key b!"colspan=" rfl (by rw [Bool.or_eq_true]; left; rw [hasPrefix_iff]; exact List.prefix_append _ _)
    rw [TableAttr.code, List.append_assoc]
    exact this
  · have := key b!"rowspan=" rfl (by rw [Bool.or_eq_true]; right; rw [hasPrefix_iff]; exact List.prefix_append _ _)
    rw [TableAttr.code, List.append_assoc]
    exact this

/-- The spans in the attributes. -/
theorem findSpans_attrs (attrs : List (TableAttr × Str)) (h : ∀ x ∈ attrs, OtherAttributes x.2 ∧ x.1.WellFormed x.2) :
    findSpans (attrsCode attrs) 0 = attrs.filterMap fun x => match x.1 with | .span .. => some x.1.code | .align _ => none := by
  induction attrs with
  | nil => rfl
  | cons x rest ih =>
    have ih := ih fun y hy => h y (by simp [hy])
    obtain ⟨ho, hw⟩ := h x (by simp)
    obtain ⟨a, next⟩ := x
    have hz : attrsCode rest = [] ∨ ∃ (a : TableAttr) (z : Str), attrsCode rest = a.code ++ z := by
      cases rest with
      | nil => exact .inl rfl
      | cons y rest => exact .inr ⟨y.1, y.2 ++ attrsCode rest, by simp [attrsCode]⟩
    have e : attrsCode ((a, next) :: rest) = a.code ++ (next ++ attrsCode rest) := by simp [attrsCode]
    rw [e, List.filterMap_cons]
    cases a with
    | span row number quoted =>
      have hm := matchSpan_code hw (attrsCode rest) (fun _ => hz)
      have hne : (TableAttr.span row number quoted).code ≠ [] := by cases row <;> simp [TableAttr.code]
      obtain ⟨c, t, hct⟩ := List.exists_cons_of_ne_nil hne
      simp only
      rw [← ih, ← other_spans ho _ hz]
      rw [hct] at hm ⊢
      rw [List.cons_append] at hm ⊢
      rw [findSpans, hm]
      simp only [List.length_cons, Nat.add_sub_cancel]
      rw [findSpans_skip, List.drop_left]
    | align value =>
      simp only
      rw [← ih, ← other_spans ho _ hz]
      apply findSpans_front
      intro x' h1 h2
      have hq : (0x3D : Byte) ∉ (TableAttr.align value).code := by
        intro hm
        simp [TableAttr.code] at hm
        exact (hw.2 _ hm).2.2.2 rfl
      obtain ⟨u, hu⟩ : ∃ u, x' = u ++ [0x3B] := by
        obtain ⟨v, hv⟩ := h2
        have hl : x'.getLast? = some 0x3B := by
          rw [← List.getLast?_append_of_ne_nil v h1, hv, TableAttr.code, List.getLast?_append_of_ne_nil _ (by simp)]
          rfl
        exact ⟨x'.dropLast, (List.dropLast_append_getLast? _ hl).symm⟩
      have hqx : (0x3D : Byte) ∉ x' := fun hm => hq (h2.sublist.mem hm)
      have key : ∀ p : Str, (0x3D : Byte) ∈ p → (0x3B : Byte) ∉ p → ¬ p <+: x' ++ (next ++ attrsCode rest) := by
        intro p hp1 hp2 hp
        rw [hu, List.append_assoc] at hp
        have := prefix_of_prefix_sep hp2 hp
        exact hqx (by rw [hu]; exact List.mem_append_left _ (this.sublist.mem hp1))
      exact ⟨key _ (by decide) (by decide), key _ (by decide) (by decide)⟩

/-- The alignment in the attributes. -/
theorem findTextAlign_attrs (attrs : List (TableAttr × Str)) (h : ∀ x ∈ attrs, OtherAttributes x.2 ∧ x.1.WellFormed x.2) :
    findTextAlign (attrsCode attrs) = (attrs.filterMap fun x => match x.1 with | .span .. => none | .align _ => some x.1.code).head? := by
  induction attrs with
  | nil => rfl
  | cons x rest ih =>
    have ih := ih fun y hy => h y (by simp [hy])
    obtain ⟨ho, hw⟩ := h x (by simp)
    obtain ⟨a, next⟩ := x
    have hz : attrsCode rest = [] ∨ ∃ (a : TableAttr) (z : Str), attrsCode rest = a.code ++ z := by
      cases rest with
      | nil => exact .inl rfl
      | cons y rest => exact .inr ⟨y.1, y.2 ++ attrsCode rest, by simp [attrsCode]⟩
    have e : attrsCode ((a, next) :: rest) = a.code ++ (next ++ attrsCode rest) := by simp [attrsCode]
    rw [e, List.filterMap_cons]
    cases a with
    | span row number quoted =>
      simp only
      rw [← ih, ← other_align ho _ hz]
      apply findTextAlign_front
      intro x' h1 h2 hp
      obtain ⟨u, c, hu, hc⟩ : ∃ u c, x' = u ++ [c] ∧ (digit c = true ∨ c = 0x22) := by
        obtain ⟨v, hv⟩ := h2
        have hl : x'.getLast? = (TableAttr.span row number quoted).code.getLast? := by
          rw [← List.getLast?_append_of_ne_nil v h1, hv]
        have hn : ∃ c, number.getLast? = some c ∧ digit c = true := by
          cases hg : number.getLast? with
          | none => exact absurd (List.getLast?_eq_none_iff.mp hg) hw.1
          | some c => exact ⟨c, rfl, hw.2.1 c (List.mem_of_getLast? hg)⟩
        obtain ⟨c, hc1, hc2⟩ := hn
        have : ∃ c, (TableAttr.span row number quoted).code.getLast? = some c ∧ (digit c = true ∨ c = 0x22) := by
          cases quoted
          · refine ⟨c, ?_, .inl hc2⟩
            simp only [TableAttr.code, Bool.false_eq_true, if_false]
            rw [List.getLast?_append_of_ne_nil _ hw.1, hc1]
          · refine ⟨0x22, ?_, .inr rfl⟩
            simp only [TableAttr.code, if_true]
            rw [List.getLast?_append_of_ne_nil _ (by simp), List.getLast?_append_of_ne_nil _ (by simp)]
            rfl
        obtain ⟨d, hd1, hd2⟩ := this
        exact ⟨x'.dropLast, d, (List.dropLast_append_getLast? _ (hl.trans hd1)).symm, hd2⟩
      have hcp : c ∉ (b!"text-align:" : Str) := by
        intro hm
        rcases hc with hc | hc
        · have : ∀ c ∈ (b!"text-align:" : Str), digit c = false := by decide
          rw [this c hm] at hc
          exact Bool.false_ne_true hc
        · subst hc
          revert hm
          decide
      rw [hu, List.append_assoc] at hp
      have hp2 := prefix_of_prefix_sep hcp hp
      have hcolon : (0x3A : Byte) ∈ (TableAttr.span row number quoted).code :=
        h2.sublist.mem (by rw [hu]; exact List.mem_append_left _ (hp2.sublist.mem (by decide)))
      have hd : ∀ c ∈ number, c ≠ (0x3A : Byte) := by
        intro c hc he
        subst he
        have := hw.2.1 _ hc
        simp [digit] at this
      cases row <;> cases quoted <;> simp [TableAttr.code] at hcolon <;> exact hd _ hcolon rfl
    | align value =>
      obtain ⟨hv1, hv2⟩ := hw
      obtain ⟨d, v, rfl⟩ := List.exists_cons_of_ne_nil hv1
      simp only [List.head?_cons]
      have e2 : (TableAttr.align (d :: v)).code ++ (next ++ attrsCode rest) =
          0x74 :: (b!"ext-align:" ++ d :: (v ++ 0x3B :: (next ++ attrsCode rest))) := by simp [TableAttr.code]
      rw [e2, findTextAlign, if_pos (by rw [hasPrefix_iff]; exact ⟨_, rfl⟩)]
      have e3 : (b!"ext-align:" ++ d :: (v ++ 0x3B :: (next ++ attrsCode rest))).drop 10 = d :: (v ++ 0x3B :: (next ++ attrsCode rest)) := rfl
      rw [e3]
      simp only
      have hsc : (0x3B : Byte) ∉ v := fun hm => (hv2 _ (by simp [hm])).1 rfl
      rw [cut_single _ hsc]
      simp only
      rw [if_neg]
      · rfl
      · rintro (rfl | hm)
        · exact (hv2 _ (by simp)).2.1 rfl
        · exact (hv2 _ (by simp [hm])).2.1 rfl

end Verif.Model
