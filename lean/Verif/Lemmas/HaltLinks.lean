import Verif.Lemmas.HaltSteps

/-!
# Termination of the tokenizer: links, galleries, image maps, images and formulas
-/

namespace Verif.Lemmas
open Verif.Go Verif.Model Verif.Spec
open scoped List

variable {rec : Nat → Rec} {M : Nat ×ₗ Nat}

theorem fits_replaceAll (s : Str) {old new : Str} (h0 : old ≠ []) (hn : Bare new) : Fits (replaceAll s old new) s := by
  induction s using sep_induction h0 with
  | nil => exact .refl _
  | sepCase s ih =>
    rw [replaceAll_of_prefix h0]
    have := ih.1; have := ih.2
    exact ⟨by simp only [lts_append, hn.1]; omega, by simp only [wt_append, hn.2]; omega⟩
  | cons c t hp ih =>
    rw [replaceAll_cons_of_not_prefix hp]
    exact Fits.append (.refl [c]) ih

/-! ### Links -/

/-- What becomes of a link: it stays as it is, it becomes smaller, or the missing closing bracket is added. -/
inductive SegStep (x : LinkSyntax) (item r : Str) : Prop where
  | same (h : r = x.opening ++ item)
  | less (h1 : lts r ≤ lts item) (h2 : wt r ≤ wt item)
  | closed (hx : x.internal = false) (hc : ¬ x.closing <:+: item) (h : r = x.opening ++ (item ++ x.closing))

theorem splitHead_eq (s : Str) {sep : Str} (h0 : sep ≠ []) : split s sep = (splitHead s sep).1 :: (splitHead s sep).2 := by
  unfold splitHead
  cases h : split s sep with
  | nil => exact absurd h (split_ne_nil s h0)
  | cons p ps => rfl

theorem splitHead_join (s : Str) {sep : Str} (h0 : sep ≠ []) :
    s = (splitHead s sep).1 ++ (if (splitHead s sep).2 ≠ [] then sep ++ join sep (splitHead s sep).2 else []) := by
  have h := join_split_self s h0
  rw [splitHead_eq s h0] at h
  cases h2 : (splitHead s sep).2 with
  | nil => rw [h2] at h; simpa [join] using h.symm
  | cons q r =>
    rw [h2] at h
    rw [join_cons_of_ne_nil (by simp)] at h
    rw [if_pos (by simp), ← List.append_assoc]
    exact h.symm

theorem getLast_sublist (t : Str) : (split t b!":").getLastD [] <+ t := by
  rw [List.getLastD_eq_getLast?]
  cases h : (split t b!":").getLast? with
  | none => exact List.nil_sublist _
  | some q => exact split_piece (by decide) (List.mem_of_getLast? h)

theorem linkText_fits {x : LinkSyntax} {target : Str} {others : List Str} {text item : Str} (ht : target <+ item)
    (ho : others ≠ [] → join x.delimiter others <+ item) (h : linkText x target others = .ok (some text)) : text <+ item := by
  unfold linkText at h
  split at h
  · split at h
    · cases h
    · split at h
      · cases h
      · split at h
        · cases h
          refine List.Sublist.trans ?_ ht
          exact getLast_sublist _
        · cases h; exact ht
  · rename_i hne
    cases h
    exact ho hne

theorem linkKey_halts (hrec : RecHalts rec M) (x : LinkSyntax) (target text segment : Str) (hm : size text < M) :
    Halts (fun n _ => linkKey (rec n) x target text segment) fun r =>
      Bare r ∨ (x.internal = false ∧ r = x.opening ++ segment ++ x.closing) := by
  have hr := hrec text hm
  unfold linkKey
  refine Halts.bind (P := fun o => match o with
    | some (kind, _) => Bare kind
    | none => x.internal = false) ?_ fun o ho => ?_
  · unfold linkToken
    refine Halts.ite (fun _ => ?_) fun hi => Halts.ite (fun _ => ?_) fun _ => Halts.ite (fun _ => ?_) fun _ => ?_
    · exact Halts.bind hr fun _ _ => Halts.pure (by show Bare _; decide)
    · exact Halts.bind hr fun _ _ => Halts.pure (by show Bare _; decide)
    · exact Halts.bind hr fun _ _ => Halts.pure (by show Bare _; decide)
    · exact Halts.pure (by simpa using hi)
  · match o, ho with
    | some (kind, token), ho =>
      refine Halts.bind (Halts.getToken ho) fun key hkey => ?_
      exact Halts.bind (Halts.setRawToken (P := fun _ => True) _ _ trivial) fun _ _ => Halts.pure (.inl hkey)
    | none, ho => exact Halts.pure (.inr ⟨ho, rfl⟩)

theorem linkTarget_sublist (x : LinkSyntax) (element : Str) : Model.linkTarget x element <+ element := by
  unfold Model.linkTarget
  refine (trimSpace_sublist _).trans ?_
  split
  · rw [splitN]
    split
    · exact .refl _
    · rename_i a b h
      rw [cut_eq_some h, List.append_assoc]
      exact List.sublist_append_left _ _
  · exact .refl _

theorem linkSegment_halts (hrec : RecHalts rec M) (env : ParserEnv) (x : LinkSyntax) (hx : x.closing ≠ [] ∧ x.delimiter ≠ [])
    (item : Str) (hm : size item < M) : Halts (fun n _ => linkSegment env (rec n) x item) (SegStep x item) := by
  unfold linkSegment
  refine Halts.ite (fun _ => Halts.pure (.same rfl)) fun _ => ?_
  have hj := splitHead_join item hx.1
  have hni : ¬ x.closing <:+: (splitHead item x.closing).1 :=
    not_infix_of_mem_split hx.1 (by rw [splitHead_eq item hx.1]; simp)
  have hp : (splitHead item x.closing).1 <+ item := by
    conv_rhs => rw [hj]
    exact List.sublist_append_left _ _
  have hj2 := splitHead_join (splitHead item x.closing).1 hx.2
  have hp2 : (splitHead (splitHead item x.closing).1 x.delimiter).1 <+ item := by
    refine List.Sublist.trans ?_ hp
    conv_rhs => rw [hj2]
    exact List.sublist_append_left _ _
  simp only
  refine Halts.bind (Halts.lift (P := fun o => ∀ text, o = some text → text <+ item) fun o ho text ht => ?_) fun o ho => ?_
  · rw [ht] at ho
    refine linkText_fits ((linkTarget_sublist _ _).trans hp2) (fun hne => ?_) ho
    refine List.Sublist.trans ?_ hp
    conv_rhs => rw [hj2]
    rw [if_pos hne]
    exact (List.sublist_append_right _ _).trans (List.sublist_append_right _ _)
  · match o, ho with
    | none, _ => exact Halts.pure (.same rfl)
    | some text, ho =>
      have ht := ho text rfl
      refine Halts.bind (linkKey_halts hrec x _ text _ (lt_of_le_of_lt (Fits.of_sublist ht).size_le hm)) fun r hr => ?_
      refine Halts.pure ?_
      generalize splitHead item x.closing = sp at *
      obtain ⟨s1, s2⟩ := sp
      simp only at *
      by_cases h2 : s2 = []
      · subst h2
        simp only [ne_eq, not_true_eq_false, if_false, List.append_nil] at hj ⊢
        subst hj
        rcases hr with hr | ⟨hi, rfl⟩
        · refine .less ?_ ?_ <;> simp [hr.1, hr.2]
        · exact .closed hi hni (by simp)
      · simp only [ne_eq, h2, not_false_eq_true, if_true] at hj ⊢
        rcases hr with hr | ⟨hi, rfl⟩
        · rw [hj]
          refine .less ?_ ?_
          · simp only [lts_append, hr.1]; omega
          · simp only [wt_append, hr.2]; omega
        · refine .same ?_
          rw [hj]
          simp

theorem linkSegments_halts (hrec : RecHalts rec M) (env : ParserEnv) (x : LinkSyntax) (hx : x.closing ≠ [] ∧ x.delimiter ≠ [])
    (items : List Str) (hm : ∀ item ∈ items, size item < M) :
    Halts (fun n _ => linkSegments env (rec n) x items) (List.Forall₂ (SegStep x) items) := by
  induction items with
  | nil => exact Halts.pure .nil
  | cons item items ih =>
    simp only [linkSegments]
    refine Halts.bind (linkSegment_halts hrec env x hx item (hm _ (by simp))) fun r hr => ?_
    refine Halts.bind (ih fun i hi => hm i (by simp [hi])) fun rs hrs => ?_
    exact Halts.pure (.cons hr hrs)

theorem singleton_infix {c : Byte} {s : Str} : [c] <:+: s ↔ c ∈ s := by
  rw [← contains_iff, contains_singleton]

/-- The number of parts without a closing bracket. -/
def openParts (items : List Str) : Nat := items.countP fun i => decide ((0x5D : Byte) ∉ i)

theorem openParts_cons (i : Str) (l : List Str) : openParts (i :: l) = openParts l + if (0x5D : Byte) ∉ i then 1 else 0 := by
  rw [openParts, List.countP_cons]; simp [openParts]

/-- The parts behind opening brackets with the brackets. -/
def opened (x : LinkSyntax) (items : List Str) : Str := (items.map (x.opening ++ ·)).flatten

theorem opened_cons (x : LinkSyntax) (i : Str) (l : List Str) : opened x (i :: l) = x.opening ++ i ++ opened x l := by
  simp [opened]

theorem segments_size {x : LinkSyntax} (hx : x = internalSyntax ∨ x = externalSyntax) {items rs : List Str}
    (h : List.Forall₂ (SegStep x) items rs) (hn : ∀ i ∈ items, ¬ x.opening <:+: i) :
    (lts rs.flatten ≤ lts (opened x items) ∧ wt rs.flatten < wt (opened x items)) ∨
    rs.flatten = opened x items ∨
    (x = externalSyntax ∧ lts rs.flatten = lts (opened x items) ∧ wt rs.flatten = wt (opened x items) ∧
      ∃ items', rs.flatten = opened x items' ∧ (∀ i ∈ items', ¬ x.opening <:+: i) ∧ openParts items' < openParts items) := by
  have hw : 0 < wt x.opening := by rcases hx with rfl | rfl <;> decide
  have hc : Bare x.closing := by rcases hx with rfl | rfl <;> decide
  induction h with
  | nil => exact .inr (.inl rfl)
  | @cons item r items rs h1 _ ih =>
    have ih := ih fun i hi => hn i (by simp [hi])
    have hni := hn item (by simp)
    rw [List.flatten_cons, opened_cons, openParts_cons]
    simp only [lts_append, wt_append]
    cases h1 with
    | less h1 h2 =>
      left
      rcases ih with ih | ih | ⟨-, e1, e2, -⟩
      · omega
      · rw [ih]; omega
      · omega
    | same h =>
      subst h
      rcases ih with ih | ih | ⟨hx, e1, e2, items', e3, e4, e5⟩
      · left; simp only [lts_append, wt_append]; omega
      · right; left; rw [ih]
      · right; right
        refine ⟨hx, by simp only [lts_append]; omega, by simp only [wt_append]; omega, item :: items', ?_, ?_, ?_⟩
        · rw [opened_cons, e3]
        · rintro i hi
          rcases List.mem_cons.mp hi with rfl | hi
          · exact hni
          · exact e4 i hi
        · rw [openParts_cons]; omega
    | closed hi hcl h =>
      have hx : x = externalSyntax := by
        rcases hx with rfl | rfl
        · cases hi
        · rfl
      subst h
      have hno : (0x5D : Byte) ∉ item := by
        rw [hx] at hcl
        intro hm
        exact hcl (singleton_infix.mpr hm)
      have hnew : ¬ x.opening <:+: item ++ x.closing := by
        subst hx
        intro h
        have h' := singleton_infix.mp h
        rcases List.mem_append.mp h' with h' | h'
        · exact hni (singleton_infix.mpr h')
        · exact absurd h' (by decide)
      have hin : (0x5D : Byte) ∈ item ++ x.closing := by
        rw [hx]; exact List.mem_append_right _ (by decide)
      simp only [lts_append, wt_append, hc.1, hc.2]
      rcases ih with ih | ih | ⟨-, e1, e2, items', e3, e4, e5⟩
      · left; omega
      · right; right
        refine ⟨hx, by rw [ih]; omega, by rw [ih]; omega, (item ++ x.closing) :: items, ?_, ?_, ?_⟩
        · rw [opened_cons, ih]
        · intro i hi
          rcases List.mem_cons.mp hi with rfl | hi
          · exact hnew
          · exact hn i (by simp [hi])
        · rw [openParts_cons, if_neg (not_not_intro hin), if_pos hno]; omega
      · right; right
        refine ⟨hx, by omega, by omega, (item ++ x.closing) :: items', ?_, ?_, ?_⟩
        · rw [opened_cons, e3]
        · intro i hi
          rcases List.mem_cons.mp hi with rfl | hi
          · exact hnew
          · exact e4 i hi
        · rw [openParts_cons, if_neg (not_not_intro hin), if_pos hno]; omega

/-- The first bracket, if there is one, is not a closing bracket. -/
def startsOpen : Str → Bool
  | [] => true
  | c :: t => if c = 0x5D then false else if c = 0x5B then true else startsOpen t

/-- The number of opening brackets whose next bracket is not a closing bracket. -/
def un : Str → Nat
  | [] => 0
  | c :: t => un t + if c = 0x5B ∧ startsOpen t = true then 1 else 0

theorem un_append {a : Str} (s : Str) (h : (0x5B : Byte) ∉ a) : un (a ++ s) = un s := by
  induction a with
  | nil => rfl
  | cons c a ih =>
    rw [List.cons_append, un, ih (fun hm => h (by simp [hm])), if_neg, Nat.add_zero]
    rintro ⟨rfl, _⟩
    exact h (by simp)

theorem startsOpen_append {i s : Str} (h : (0x5B : Byte) ∉ i) (hs : startsOpen s = true) :
    startsOpen (i ++ s) = true ↔ (0x5D : Byte) ∉ i := by
  induction i with
  | nil => simpa using hs
  | cons c i ih =>
    rw [List.cons_append, startsOpen]
    by_cases hc : c = 0x5D
    · simp [hc]
    · rw [if_neg hc, if_neg (fun e => h (by simp [e])), ih fun hm => h (by simp [hm])]
      simp [Ne.symm hc]

theorem opened_external (items : List Str) : startsOpen (opened externalSyntax items) = true := by
  cases items with
  | nil => rfl
  | cons i l => rw [opened_cons]; rfl

theorem un_opened (items : List Str) (h : ∀ i ∈ items, ¬ externalSyntax.opening <:+: i) :
    un (opened externalSyntax items) = openParts items := by
  induction items with
  | nil => rfl
  | cons i l ih =>
    have hi : (0x5B : Byte) ∉ i := fun hm => h i (by simp) (singleton_infix.mpr hm)
    rw [opened_cons, openParts_cons, List.append_assoc]
    show un (i ++ opened externalSyntax l) + (if (0x5B : Byte) = 0x5B ∧ startsOpen (i ++ opened externalSyntax l) = true then 1 else 0) = _
    rw [un_append _ hi, ih fun i hi => h i (by simp [hi])]
    congr 1
    simp only [startsOpen_append hi (opened_external l), true_and]

theorem splitHead_opened (x : LinkSyntax) (content : Str) (h0 : x.opening ≠ []) :
    content = (splitHead content x.opening).1 ++ opened x (splitHead content x.opening).2 := by
  have h := splitHead_join content h0
  conv_lhs => rw [h]
  congr 1
  generalize (splitHead content x.opening).2 = l
  have key : ∀ l : List Str, l ≠ [] → x.opening ++ join x.opening l = opened x l := by
    intro l hl
    induction l with
    | nil => exact absurd rfl hl
    | cons a l ih =>
      rw [opened_cons]
      cases l with
      | nil => simp [join, opened]
      | cons b l => rw [join_cons_of_ne_nil (by simp), ← ih (by simp)]; simp
  split
  · rename_i hl; exact key l hl
  · rename_i hl; rw [not_not.mp hl]; rfl

theorem parseLink_halts (hrec : RecHalts rec M) (env : ParserEnv) {x : LinkSyntax} (hx : x = internalSyntax ∨ x = externalSyntax)
    (content : Str) (hm : size content ≤ M) : Halts (fun n _ => parseLink env (rec n) x content) fun r =>
      Step content r ∨ (x = externalSyntax ∧ size r = size content ∧ un r < un content) := by
  have h0 : x.opening ≠ [] := by rcases hx with rfl | rfl <;> decide
  have hw : 0 < wt x.opening := by rcases hx with rfl | rfl <;> decide
  have h2 : x.closing ≠ [] ∧ x.delimiter ≠ [] := by rcases hx with rfl | rfl <;> decide
  have he := splitHead_opened x content h0
  have hs := splitHead_eq content h0
  have hno : ∀ p ∈ split content x.opening, ¬ x.opening <:+: p := fun p hp => not_infix_of_mem_split h0 hp
  unfold parseLink
  simp only
  generalize splitHead content x.opening = sp at *
  obtain ⟨first, items⟩ := sp
  simp only at *
  rw [hs] at hno
  refine Halts.bind (linkSegments_halts hrec env x h2 items fun i hi => lt_of_lt_of_le ?_ hm) fun rs hrs => ?_
  · obtain ⟨a, b, rfl⟩ := List.append_of_mem hi
    have : x.opening ++ i <+ content := by
      rw [he]
      refine List.Sublist.trans ?_ (List.sublist_append_right _ _)
      exact List.sublist_flatten_of_mem (by simp)
    have h := Fits.of_sublist this
    have h1 := h.1; have h2 := h.2
    rw [lts_append] at h1
    rw [wt_append] at h2
    rw [size_lt]
    omega
  · refine Halts.pure ?_
    rcases segments_size hx hrs (fun i hi => hno i (by simp [hi])) with ⟨h1, h2⟩ | h | ⟨h, e1, e2, items', e3, e4, e5⟩
    · left; right
      rw [size_lt]
      conv_rhs => rw [he]
      conv in (lts content) => rw [he]
      simp only [lts_append, wt_append]
      omega
    · left; left; rw [he, h]
    · right
      refine ⟨h, ?_, ?_⟩
      · rw [size, size, he]; simp only [lts_append, wt_append, e1, e2]
      · have hf : (0x5B : Byte) ∉ first := by
          intro hm
          have := hno first (by simp)
          rw [h] at this
          exact this (singleton_infix.mpr hm)
        subst h
        rw [he, un_append _ hf, un_append _ hf, e3, un_opened _ e4, un_opened _ fun i hi => hno i (by simp [hi])]
        exact e5

theorem parseInternalLinks_halts (hrec : RecHalts rec M) (env : ParserEnv) (content : Str) (hm : size content ≤ M) :
    Halts (fun n _ => parseInternalLinks env (rec n) content) (Step content) :=
  (parseLink_halts hrec env (.inl rfl) content hm).mono fun r h => by
    rcases h with h | ⟨h, _⟩
    · exact h
    · exact absurd h (by simp [internalSyntax, externalSyntax])

theorem parseExternalLinks_halts (hrec : RecHalts rec M) (env : ParserEnv) (content : Str) (hm : size content ≤ M) :
    Halts (fun n _ => parseExternalLinks env (rec n) content) fun r => Step content r ∨ (size r = size content ∧ un r < un content) :=
  (parseLink_halts hrec env (.inr rfl) content hm).mono fun r h => by
    rcases h with h | ⟨_, h⟩
    · exact .inl h
    · exact .inr h

/-! ### Formulas -/

theorem lts_pos_of_mem {s : Str} (h : (0x3C : Byte) ∈ s) : 0 < lts s := List.count_pos_iff.mpr h

theorem findMath_tag (s : Str) : ∀ (skip : Nat), ∀ m ∈ findMath s skip, (0x3C : Byte) ∈ m.1 := by
  induction s with
  | nil => intro skip m h; simp [findMath] at h
  | cons c t ih =>
    intro skip m h
    cases skip with
    | succ skip => rw [findMath] at h; exact ih _ m h
    | zero =>
      rw [findMath] at h
      split at h
      · rename_i m' hm
        rcases List.mem_cons.mp h with rfl | h
        · unfold matchMath at hm
          split at hm
          · split at hm
            · cases hm
            · split at hm
              · cases hm
              · split at hm
                · cases hm
                · cases hm; simp
          · cases hm
        · exact ih _ m h
      · exact ih _ m h

theorem replaceFirst_lts {old key : Str} (ho : (0x3C : Byte) ∈ old) (hk : Bare key) (s : Str) :
    replaceFirst old key s = s ∨ lts (replaceFirst old key s) < lts s := by
  induction s with
  | nil => exact .inl rfl
  | cons c t ih =>
    rw [replaceFirst]
    split
    · rename_i hp
      right
      obtain ⟨r, hr⟩ := List.isPrefixOf_iff_prefix.mp hp
      rw [← hr, List.drop_left]
      have := lts_pos_of_mem ho
      simp only [lts_append, hk.1]
      omega
    · rcases ih with ih | ih
      · left; rw [ih]
      · right; rw [lts_cons, lts_cons]; omega

theorem mathLoop_halts (ms : List (Str × Str)) : ∀ (content : Str), (∀ m ∈ ms, (0x3C : Byte) ∈ m.1) →
    Halts (fun _ _ => mathLoop ms content) (Step content) := by
  induction ms with
  | nil => intro content _; exact Halts.pure (.refl _)
  | cons m ms ih =>
    intro content h
    simp only [mathLoop]
    refine Halts.bind (Halts.getToken (by decide)) fun key hkey => ?_
    refine Halts.bind (Halts.setRawToken (P := fun _ => True) _ _ trivial) fun _ _ => ?_
    refine (ih _ fun m hm => h m (by simp [hm])).mono fun r hr => Step.trans ?_ hr
    rcases replaceFirst_lts (h m (by simp)) hkey content with e | e
    · exact .inl e
    · exact .of_lts e

theorem parseMath_halts (content : Str) : Halts (fun _ _ => parseMath content) (Step content) :=
  mathLoop_halts _ _ (findMath_tag content 0)

end Verif.Lemmas
