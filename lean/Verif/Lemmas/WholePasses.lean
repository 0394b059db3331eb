import Verif.Lemmas.WholeSteps

/-!
# The tokenizer keeps keys complete: the passes
-/

namespace Verif.Lemmas
open Verif.Go Verif.Model Verif.Spec
open scoped List

variable {X : Alphabet} {m m0 : List (Str × Token)} {rec : Rec} {content : Str}

theorem mem_takeWhile_imp {α : Type} {p : α → Bool} {l : List α} {x : α} (h : x ∈ l.takeWhile p) : p x = true :=
  List.all_eq_true.mp List.all_takeWhile x h

/-! ### References -/

theorem Whole.trimNewlines {s : Str} (h : Whole X m s) : Whole X m (trimNewlines s) := by
  unfold Model.trimNewlines trimRightOf
  have e : s = (s.reverse.dropWhile fun c => decide (c = (0x0A : Byte))).reverse ++ (s.reverse.takeWhile fun c => decide (c = (0x0A : Byte))).reverse := by
    rw [← List.reverse_append, List.takeWhile_append_dropWhile, List.reverse_reverse]
  have hn : ∀ c ∈ (s.reverse.takeWhile fun c => decide (c = (0x0A : Byte))).reverse, c = 0x0A := by
    intro c hc
    simpa using mem_takeWhile_imp (List.mem_reverse.mp hc)
  refine (h.cut e ?_).1
  cases hl : (s.reverse.takeWhile fun c => decide (c = (0x0A : Byte))).reverse with
  | nil => exact .inr (.inl rfl)
  | cons d t =>
    rw [hl] at hn
    exact .inr (.inr (.inr ⟨d, rfl, by rw [hn d (by simp)]; decide⟩))

/-- All texts of references found so far are whole. -/
def RefsWhole (X : Alphabet) (m : List (Str × Token)) (contents : List ((Str × Nat) × Str)) : Prop := ∀ e ∈ contents, Whole X m e.2

theorem RefsWhole.mono {m m' : List (Str × Token)} {l : List ((Str × Nat) × Str)} (h : RefsWhole X m l) (hs : m <:+ m') : RefsWhole X m' l :=
  fun e he => (h e he).mono hs

theorem RefsWhole.assoc {l : List ((Str × Nat) × Str)} (h : RefsWhole X m l) {k : Str × Nat} {s : Str} (e : assoc l k = some s) : Whole X m s := by
  unfold Model.assoc at e
  cases hf : l.find? (fun e => decide (e.1 = k)) with
  | none => rw [hf] at e; cases e
  | some x =>
    rw [hf] at e
    cases e
    exact h x (List.mem_of_find?_eq_some hf)

theorem refDefinitions_good {contents : List ((Str × Nat) × Str)} (group : Str) (n k : Nat) : ∀ m, RefsWhole X m contents →
    Good X m (refDefinitions contents group n k) fun m' r => Whole X m' r := by
  induction k with
  | zero => intro m _; exact Good.pure fun _ _ => .nil
  | succ k ih =>
    intro m h
    rw [refDefinitions]
    cases ha : Model.assoc contents (group, n - (k + 1)) with
    | none => exact ih m h
    | some text =>
      refine Good.token (by decide) (by simpa [tokenTexts] using h.assoc ha) fun key m1 h1 hkey => ?_
      refine Good.bind (ih m1 (h.mono h1)) fun rest m2 h2 hr => Good.pure fun m3 h3 => ?_
      exact ((hkey.mono (h2.trans h3)).append whole_newline).append (hr.mono h3)

theorem refUsage_good (within : Bool) (number : Nat) : Good X m (refUsage within number) fun m' r => Whole X m' r := by
  unfold refUsage
  refine Good.ite (fun _ => Good.pure fun _ _ => .nil) fun _ => ?_
  exact Good.token (by decide) (by simp [tokenTexts]) fun key m1 h1 hkey => Good.pure fun _ h => hkey.mono h

theorem refTag_good (hr : RecGood X rec) (hg : ∀ c, Growing (rec c)) {i startEnd : Nat} {st : RefState} (hw : Whole X m content)
    (hst : RefsWhole X m st.contents) (hi : content[i]? = some 0x3C) (hs : content[startEnd]? = some 0x3E) :
    Good X m (refTag rec content i startEnd st) fun m' r => Whole X m' r.1 ∧ RefsWhole X m' r.2.contents := by
  have hi' := hw.at hi (by decide)
  have hs' := hw.at hs (by decide)
  unfold refTag
  refine Good.ite (fun _ => ?_) fun _ => Good.ite (fun _ => ?_) fun _ => ?_
  · refine Good.bind (Good.lift (P := fun _ _ => True) fun _ _ _ _ => trivial) (fun group m1 h1 _ => ?_) ?_
    · refine Good.bind (P := fun m r => Whole X m r.1 ∧ RefsWhole X m r.2) ?_ fun r m2 h2 hr2 => Good.pure fun m3 h3 => ?_
      · unfold refEndPlaceholder
        refine Good.bind (refDefinitions_good _ _ _ _ (hst.mono h1)) fun keys m2 h2 hk => Good.pure fun m3 h3 => ⟨?_, ?_⟩
        · have hle := (h1.trans h2).trans h3
          exact (((hi'.1.mono hle).trimNewlines.append whole_newline).append (hk.mono h3)).trimNewlines.append (hs'.2.2.2.mono hle)
        · intro e he
          exact (hst e (List.mem_filter.mp he).1).mono ((h1.trans h2).trans h3)
      · exact ⟨hr2.1.mono h3, hr2.2.mono h3⟩
    · intro group
      unfold refEndPlaceholder
      keeps
  · refine Good.bind (Good.lift (P := fun _ _ => True) fun _ _ _ _ => trivial) fun group m1 h1 _ => Good.pure fun m2 h2 => ⟨?_, ?_⟩
    · exact (hi'.1.append hs'.2.2.2).mono (h1.trans h2)
    · exact hst.mono (h1.trans h2)
  · have hk1 : ∀ name group, KeepsKeys (namedReferenceUsage content i startEnd name group st) := by
      intro name group; unfold namedReferenceUsage; keeps
    have hk2 : ∀ refEnd name group, KeepsKeys (referenceDefinition rec content i startEnd refEnd name group st) := by
      intro refEnd name group; unfold referenceDefinition; keeps
    have hk3 : ∀ name group, KeepsKeys (if content[startEnd - 1]? = some 0x2F then namedReferenceUsage content i startEnd name group st
        else match findCloseIgnoreCase content startEnd b!"<ref" b!"</ref>" with
          | none => TokM.panic
          | some refEnd => referenceDefinition rec content i startEnd refEnd name group st) := by
      intro name group
      split
      · exact hk1 _ _
      · split
        · exact KeepsKeys.panic
        · exact hk2 _ _ _
    refine Good.bind (Good.lift (P := fun _ _ => True) fun _ _ _ _ => trivial) (fun name m1 h1 _ => ?_) fun _ => KeepsKeys.bind (KeepsKeys.lift _) fun _ => hk3 _ _
    refine Good.bind (Good.lift (P := fun _ _ => True) fun _ _ _ _ => trivial) (fun group m2 h2 _ => ?_) fun _ => hk3 _ _
    have hw := hw.mono (h1.trans h2)
    have hst := hst.mono (h1.trans h2)
    have hi' := hw.at hi (by decide)
    have hs' := hw.at hs (by decide)
    refine Good.ite (fun _ => ?_) fun _ => ?_
    · unfold namedReferenceUsage
      refine Good.ite (fun _ => ?_) fun _ => Good.pure fun _ h => ⟨hw.mono h, hst.mono h⟩
      simp only
      refine Good.bind (refUsage_good _ _) fun key m3 h3 hkey => Good.pure fun m4 h4 => ⟨?_, ?_⟩
      · exact ((hi'.1.mono (h3.trans h4)).append (hkey.mono h4)).append (hs'.2.2.2.mono (h3.trans h4))
      · split <;> exact hst.mono (h3.trans h4)
    · cases hf : findCloseIgnoreCase content startEnd b!"<ref" b!"</ref>" with
      | none => exact Good.panic
      | some refEnd =>
        have hge := findCloseIgnoreCase_ge hf
        have hat := findCloseIgnoreCase_at (by decide) hf
        have h1 : content[refEnd]? = some 0x3C := equalsIgnoreCase_at hat (j := 0) (by decide) (by decide)
        have h2 : content[refEnd + 5]? = some 0x3E := equalsIgnoreCase_at hat (j := 5) (by decide) (by decide)
        have hne : startEnd ≠ refEnd := by
          rintro rfl
          rw [hs] at h1
          cases h1
        unfold referenceDefinition
        simp only
        refine Good.bind (hr _ _ ?_) fun text m3 h3 htext => ?_
        · refine ((hw.at h1 (by decide)).1.at (i := startEnd) (c := 0x3E) ?_ (by decide)).2.2.2
          rw [List.getElem?_take_of_lt (by omega)]
          exact hs
        · refine Good.bind (refUsage_good _ _) fun key m4 h4 hkey => Good.pure fun m5 h5 => ⟨?_, ?_⟩
          · have hle := (h3.trans h4).trans h5
            exact ((hi'.1.mono hle).append (hkey.mono h5)).append ((hw.at h2 (by decide)).2.2.2.mono hle)
          · intro e he
            rcases List.mem_cons.mp he with rfl | he
            · exact htext.mono (h4.trans h5)
            · exact (hst e he).mono ((h3.trans h4).trans h5)

theorem refLoop_good (hr : RecGood X rec) (hg : ∀ c, Growing (rec c)) (fuel : Nat) : ∀ (m) (content : Str) (i : Nat) (st : RefState),
    Whole X m content → RefsWhole X m st.contents → Good X m (refLoop rec fuel content i st) fun m' r => Whole X m' r := by
  induction fuel with
  | zero => intro _ _ _ _ _ _; exact Good.running
  | succ fuel ih =>
    intro m content i st hw hst
    rw [refLoop]
    refine Good.ite (fun _ => Good.ite (fun ht => ?_) fun _ => ih _ _ _ _ hw hst) fun _ => Good.pure fun _ h => hw.mono h
    cases hf : findCloseIgnoreCase content (i + 4) b!"<ref" b!">" with
    | none => exact Good.panic
    | some startEnd =>
      have h1 : content[i]? = some 0x3C := by
        rw [Bool.or_eq_true] at ht
        rcases ht with ht | ht <;> exact tag_at ht
      have h2 : content[startEnd]? = some 0x3E :=
        equalsIgnoreCase_at (findCloseIgnoreCase_at (by decide) hf) (j := 0) (by decide) (by decide)
      exact Good.bind (refTag_good hr hg hw hst h1 h2) fun r m1 h1 h => ih _ _ _ _ h.1 h.2

theorem parseReferences_good (hr : RecGood X rec) (hg : ∀ c, Growing (rec c)) (fuel : Nat) (hw : Whole X m content) :
    Good X m (parseReferences rec fuel content) fun m' r => Whole X m' r :=
  refLoop_good hr hg fuel m content 0 _ hw fun e he => absurd he (by simp)

/-! ### Links -/

/-- The brackets and the delimiter are not part of keys. -/
def LinkMarkup (x : LinkSyntax) : Prop :=
  Markup x.opening ∧ Markup x.closing ∧ Markup x.delimiter ∧ ∀ c ∈ x.opening ++ x.closing ++ x.delimiter, c ∉ b!"$MAKER_"

instance (x : LinkSyntax) : Decidable (LinkMarkup x) := by unfold LinkMarkup; infer_instance

theorem linkToken_good (hr : RecGood X rec) (hg : ∀ c, Growing (rec c)) (x : LinkSyntax) {target text : Str} (ht : Whole X m text) :
    Good X m (linkToken rec x target text) fun m' r => ∀ p, r = some p → TypeName p.1 ∧ ∀ t ∈ tokenTexts p.2, Whole X m' t := by
  unfold linkToken
  refine Good.ite (fun _ => ?_) fun _ => Good.ite (fun _ => ?_) fun _ => Good.ite (fun _ => ?_) fun _ => ?_
  · refine Good.bind (hr m _ ht) fun t m1 h1 hw => Good.pure fun m2 h2 => ?_
    rintro p ⟨rfl⟩
    exact ⟨by show TypeName (b!"INTERNAL_LINK"); decide, by simpa [tokenTexts] using hw.mono h2⟩
  · refine Good.bind (hr m _ ht) fun t m1 h1 hw => Good.pure fun m2 h2 => ?_
    rintro p ⟨rfl⟩
    exact ⟨by show TypeName (b!"EXTERNAL_LINK"); decide, by simpa [tokenTexts] using hw.mono h2⟩
  · refine Good.bind (hr m _ ht) fun t m1 h1 hw => Good.pure fun m2 h2 => ?_
    rintro p ⟨rfl⟩
    exact ⟨by show TypeName (b!"STRING"); decide, by simpa [tokenTexts] using hw.mono h2⟩
  · refine Good.pure fun _ _ => ?_
    intro p hp; cases hp

theorem keeps_linkKey (hg : ∀ c, Growing (rec c)) (x : LinkSyntax) (target text segment : Str) : KeepsKeys (linkKey rec x target text segment) := by
  unfold linkKey
  refine KeepsKeys.bind (KeepsKeys.of (growing_linkToken hg x target text)) fun r => ?_
  keeps

theorem linkKey_good (hr : RecGood X rec) (hg : ∀ c, Growing (rec c)) {x : LinkSyntax} (hx : LinkMarkup x) {target text segment : Str}
    (ht : Whole X m text) (hs : Whole X m segment) : Good X m (linkKey rec x target text segment) fun m' r => Whole X m' r := by
  unfold linkKey
  refine Good.bind (linkToken_good hr hg x ht) fun r m1 h1 hp => ?_
  cases r with
  | none =>
    refine Good.pure fun m2 h2 => ?_
    refine (Whole.append ?_ (hs.mono (h1.trans h2))).append ?_
    · exact Whole.literal fun c hc => hx.2.2.2 c (by simp [hc])
    · exact Whole.literal fun c hc => hx.2.2.2 c (by simp [hc])
  | some p =>
    obtain ⟨kind, token⟩ := p
    obtain ⟨h2, h3⟩ := hp _ rfl
    exact Good.token h2 h3 fun key m2 h2 hkey => Good.pure fun _ h => hkey.mono h

theorem splitN_head_whole {element : Str} (h : Whole X m element) : Whole X m ((splitN b!"#" 2 element).headD []) := by
  simp only [splitN.eq_def]
  cases hc : Go.cut b!"#" element with
  | none => exact h
  | some p => exact (h.cut_eq (by decide) hc).1

theorem linkTarget_whole (x : LinkSyntax) {element : Str} (h : Whole X m element) : Whole X m (Model.linkTarget x element) := by
  unfold Model.linkTarget
  refine Whole.trimSpace ?_
  split
  · exact splitN_head_whole h
  · exact h

theorem linkText_whole {x : LinkSyntax} (hx : LinkMarkup x) {target : Str} {others : List Str} (ht : Whole X m target) (ho : ∀ p ∈ others, Whole X m p)
    {text : Str} (e : linkText x target others = .ok (some text)) : Whole X m text := by
  unfold linkText at e
  split at e
  · split at e
    · cases e
    · split at e
      · cases e
      · split at e
        · cases e
          exact Whole.getLastD (ht.split (by decide))
        · cases e
          exact ht
  · cases e
    exact Whole.join (Whole.literal fun c hc => hx.2.2.2 c (by simp [hc])) ho

theorem linkSegment_good (env : ParserEnv) (hr : RecGood X rec) (hg : ∀ c, Growing (rec c)) {x : LinkSyntax} (hx : LinkMarkup x) {item : Str}
    (hw : Whole X m item) : Good X m (linkSegment env rec x item) fun m' r => Whole X m' r := by
  have hopen : ∀ {m}, Whole X m x.opening := Whole.literal fun c hc => hx.2.2.2 c (by simp [hc])
  have hclose : ∀ {m}, Whole X m x.closing := Whole.literal fun c hc => hx.2.2.2 c (by simp [hc])
  have hseg := hw.splitHead hx.2.1
  have hel := hseg.1.splitHead hx.2.2.1
  unfold linkSegment
  refine Good.ite (fun _ => Good.pure fun _ h => hopen.append (hw.mono h)) fun _ => ?_
  simp only
  refine Good.bind (Good.lift (P := fun m' t => ∀ text, t = some text → Whole X m' text) ?_) (fun t m1 h1 ht => ?_) ?_
  · rintro a e m' hm text rfl
    exact (linkText_whole hx (linkTarget_whole x hel.1) hel.2 e).mono hm
  · cases t with
    | none => exact Good.pure fun _ h => hopen.append (hw.mono (h1.trans h))
    | some text =>
      refine Good.bind (linkKey_good hr hg hx (ht _ rfl) (hseg.1.mono h1)) fun link m2 h2 hl => Good.pure fun m3 h3 => ?_
      refine (hl.mono h3).append ?_
      split
      · exact Whole.join hclose fun p hp => (hseg.2 p hp).mono ((h1.trans h2).trans h3)
      · exact .nil
  · intro t
    cases t with
    | none => exact KeepsKeys.pure _
    | some text => exact KeepsKeys.bind (keeps_linkKey hg _ _ _ _) fun _ => KeepsKeys.pure _

theorem linkSegments_good (env : ParserEnv) (hr : RecGood X rec) (hg : ∀ c, Growing (rec c)) {x : LinkSyntax} (hx : LinkMarkup x) (l : List Str) :
    ∀ m, Wholes X m l → Good X m (linkSegments env rec x l) fun m' r => Wholes X m' r := by
  induction l with
  | nil => intro m h; exact Good.pure fun _ hs => h.mono hs
  | cons item rest ih =>
    intro m h
    rw [linkSegments]
    refine Good.bind (linkSegment_good env hr hg hx (h item (by simp))) fun s m1 h1 hs => ?_
    refine Good.bind (ih m1 fun t ht => (h t (by simp [ht])).mono h1) fun r m2 h2 hr => Good.pure fun m3 h3 => ?_
    exact .cons (hs.mono (h2.trans h3)) (hr.mono h3)

theorem parseLink_good (env : ParserEnv) (hr : RecGood X rec) (hg : ∀ c, Growing (rec c)) {x : LinkSyntax} (hx : LinkMarkup x)
    (hw : Whole X m content) : Good X m (parseLink env rec x content) fun m' r => Whole X m' r := by
  have hp := hw.splitHead hx.1
  unfold parseLink
  simp only
  refine Good.bind (linkSegments_good env hr hg hx _ m hp.2) fun l m1 h1 hl => Good.pure fun m2 h2 => ?_
  exact (hp.1.mono (h1.trans h2)).append (Whole.flatten (hl.mono h2))

theorem parseInternalLinks_good (env : ParserEnv) (hr : RecGood X rec) (hg : ∀ c, Growing (rec c)) (hw : Whole X m content) :
    Good X m (parseInternalLinks env rec content) fun m' r => Whole X m' r := parseLink_good env hr hg (by decide) hw

theorem parseExternalLinks_good (env : ParserEnv) (hr : RecGood X rec) (hg : ∀ c, Growing (rec c)) (hw : Whole X m content) :
    Good X m (parseExternalLinks env rec content) fun m' r => Whole X m' r := parseLink_good env hr hg (by decide) hw

/-! ### Images -/

/-- If there are no images in the end, the image is of an ignored type. -/
theorem escapeImages_run {env : ParserEnv} {c r : Str} {s s' : TokState} (e : escapeImages env c s = some (.ok (r, s'))) (hi : s'.images = []) :
    r = [] ∧ s' = s ∧ env.config.list .ignoredMediaTypes ≠ [] := by
  have core : ∀ (mediaType filename extension : Str) (x y : Prop) [Decidable x] [Decidable y] (rest : List Str),
      (if extension ∈ env.config.list .ignoredMediaTypes ∧ ¬ x ∧ ¬ y then pure []
        else if replaceAll (replaceAll filename b!" " b!"_") b!"%20" b!"_" = [] then TokM.panic
        else do
          addImage (mediaType ++ b!":" ++ env.upperFirst (replaceAll (replaceAll filename b!" " b!"_") b!"%20" b!"_"))
          pure (join b!"|" ((mediaType ++ b!":" ++ env.upperFirst (replaceAll (replaceAll filename b!" " b!"_") b!"%20" b!"_")) :: rest)) : TokM Str) s
        = some (.ok (r, s')) → r = [] ∧ s' = s ∧ env.config.list .ignoredMediaTypes ≠ [] := by
    intro mediaType filename extension x y _ _ rest e
    split at e
    · rename_i h
      cases e
      exact ⟨rfl, rfl, List.ne_nil_of_mem h.1⟩
    · split at e
      · cases e
      · exfalso
        obtain ⟨b, s1, h1, h2⟩ := TokM.bind_ok.mp e
        cases h1
        cases h2
        simp at hi
  unfold escapeImages at e
  simp only at e
  split at e <;> exact core _ _ _ _ _ _ e

theorem escapeImages_good (env : ParserEnv) (s : Str) :
    Good X m (escapeImages env s) fun _ r => r = [] ∧ env.config.list .ignoredMediaTypes ≠ [] := by
  intro st a st' e hi hm hb
  obtain ⟨h1, rfl, h3⟩ := escapeImages_run e hi
  exact ⟨hb, List.suffix_rfl, h1, h3⟩

theorem keeps_imageMapLines (env : ParserEnv) (lines : List Str) (within : Bool) : KeepsKeys (imageMapLines env lines within) :=
  KeepsKeys.of (growing_imageMapLines env _ lines (Nat.le_refl _) within)

theorem removeAllIgnoreCase_whole (s : Str) (hw : Whole X m s) : Whole X m (removeAllIgnoreCase b!"</gallery>" s 0) := by
  have skip : ∀ (n : Nat) (s : Str), removeAllIgnoreCase b!"</gallery>" s n = removeAllIgnoreCase b!"</gallery>" (s.drop n) 0 := by
    intro n
    induction n with
    | zero => intro s; rfl
    | succ n ih =>
      intro s
      cases s with
      | nil => rw [List.drop_nil, removeAllIgnoreCase, removeAllIgnoreCase]
      | cons c s => rw [removeAllIgnoreCase, List.drop_succ_cons]; exact ih s
  -- the text is read from a position on; the part before is not cut apart
  suffices h : ∀ (k : Nat) (pre s : Str), s.length ≤ k → Whole X m (pre ++ s) → Whole X m (pre ++ removeAllIgnoreCase b!"</gallery>" s 0) by
    exact h s.length [] s (Nat.le_refl _) hw
  intro k
  induction k with
  | zero =>
    intro pre s hk hw
    have : s = [] := List.length_eq_zero_iff.mp (by omega)
    subst this
    exact hw
  | succ k ih =>
    intro pre s hk hw
    cases s with
    | nil => exact hw
    | cons c t =>
      rw [removeAllIgnoreCase]
      split
      · rename_i he
        have he' : equalsIgnoreCase (((c :: t).drop 0).take b!"</gallery>".length) b!"</gallery>" = true := he
        have h1 : (c :: t)[0]? = some 0x3C := by
          have := equalsIgnoreCase_at he' (j := 0) (d := 0x3C) (by decide) (by decide)
          simpa using this
        have h2 : (c :: t)[9]? = some 0x3E := by
          have := equalsIgnoreCase_at he' (j := 9) (d := 0x3E) (by decide) (by decide)
          simpa using this
        rw [skip]
        have hcut := hw.cut rfl (.inr (.inr (.inr ⟨0x3C, by simpa using h1, by decide⟩)))
        have hrest := (hcut.2.at h2 (by decide)).2.2.2
        rw [List.drop_succ_cons] at hrest
        refine ih pre _ (by simp only [List.length_drop, List.length_cons] at hk ⊢; omega) ?_
        exact hcut.1.append hrest
      · have := ih (pre ++ [c]) t (by simp only [List.length_cons] at hk; omega) (by simpa using hw)
        simpa using this

theorem galleryImage_good (env : ParserEnv) (s : Str) : Good X m (galleryImage env s) fun _ r => r = [] := by
  unfold galleryImage
  simp only
  refine Good.bind (escapeImages_good env _) fun line m1 _ h => Good.pure fun _ _ => ?_
  rw [h.1]
  rfl

theorem galleryLines_good (env : ParserEnv) (lines : List Str) : ∀ m within, Wholes X m lines →
    Good X m (galleryLines env lines within) fun m' r => Wholes X m' r := by
  induction lines with
  | nil => intro m _ h; exact Good.pure fun _ hs => h.mono hs
  | cons line rest ih =>
    intro m within h
    have hl := h line (by simp)
    have hrest : Wholes X m rest := fun t ht => h t (by simp [ht])
    rw [galleryLines]
    simp only
    refine Good.ite (fun _ => Good.ite (fun _ => ih _ _ hrest) fun _ => ?_) fun _ => ?_
    · refine Good.bind (ih _ _ hrest) fun r m1 h1 hr => Good.pure fun m2 h2 => ?_
      exact .cons (removeAllIgnoreCase_whole _ (hl.mono (h1.trans h2))) (hr.mono h2)
    · generalize (match matchGallery (trimSpace line) with
        | some after => (true, after)
        | none => (within, trimSpace line)) = p
      obtain ⟨within', trimmed⟩ := p
      refine Good.ite (fun _ => Good.ite (fun _ => ih _ _ hrest) fun _ => ?_) fun _ => ?_
      · refine Good.bind (galleryImage_good env _) fun l m1 h1 hl => ?_
        refine Good.bind (ih _ _ (hrest.mono h1)) fun r m2 h2 hr => Good.pure fun m3 h3 => ?_
        subst hl
        exact .cons .nil (hr.mono h3)
      · refine Good.bind (ih _ _ hrest) fun r m1 h1 hr => Good.pure fun m2 h2 => ?_
        exact .cons (hl.mono (h1.trans h2)) (hr.mono h2)

theorem parseGalleries_good (env : ParserEnv) (hw : Whole X m content) : Good X m (parseGalleries env content) fun m' r => Whole X m' r := by
  unfold parseGalleries
  exact Good.bind (galleryLines_good env _ m false hw.lines) fun l m1 _ hl => Good.pure fun _ h => (hl.mono h).join

theorem imageMapLines_good (env : ParserEnv) (n : Nat) : ∀ (lines : List Str), lines.length ≤ n → ∀ m within, Wholes X m lines →
    Good X m (imageMapLines env lines within) fun m' r => Wholes X m' r := by
  have hb : ∀ {m}, Whole X m (b!"[[" ++ [] ++ b!"]]") := Whole.literal (by decide)
  induction n with
  | zero =>
    intro lines hn m within h
    have : lines = [] := List.length_eq_zero_iff.mp (by omega)
    subst this
    exact Good.pure fun _ hs => h.mono hs
  | succ n ih =>
    intro lines hn m within h
    cases lines with
    | nil => exact Good.pure fun _ hs => h.mono hs
    | cons line rest =>
      have hl := h line (by simp)
      have hrest : Wholes X m rest := fun t ht => h t (by simp [ht])
      have hn' : rest.length ≤ n := by simpa using hn
      rw [imageMapLines.eq_def]
      simp only
      refine Good.ite (fun _ => ih _ hn' _ _ hrest) fun _ => Good.ite (fun _ => ih _ hn' _ _ hrest) fun _ => ?_
      cases matchImagemap line with
      | none =>
        refine Good.bind (ih _ hn' _ _ hrest) (fun r m1 h1 hr => Good.pure fun m2 h2 => ?_)
        exact .cons (hl.mono (h1.trans h2)) (hr.mono h2)
      | some after =>
        simp only
        refine Good.ite (fun _ => ?_) fun _ => ?_
        · cases rest with
          | nil => exact Good.panic
          | cons next rest =>
            refine Good.bind (escapeImages_good env _) (fun l m1 h1 hl => ?_) fun _ => KeepsKeys.bind (keeps_imageMapLines _ _ _) fun _ => KeepsKeys.pure _
            refine Good.bind (ih rest (by simp only [List.length_cons] at hn'; omega) m1 true fun t ht => (hrest t (by simp [ht])).mono h1)
              fun r m2 h2 hr => Good.pure fun m3 h3 => ?_
            rw [hl.1]
            exact .cons hb (hr.mono h3)
        · refine Good.bind (escapeImages_good env _) (fun l m1 h1 hl => ?_) fun _ => KeepsKeys.bind (keeps_imageMapLines _ _ _) fun _ => KeepsKeys.pure _
          refine Good.bind (ih _ hn' m1 true (hrest.mono h1)) fun r m2 h2 hr => Good.pure fun m3 h3 => ?_
          rw [hl.1]
          exact .cons hb (hr.mono h3)

theorem parseImageMaps_good (env : ParserEnv) (hw : Whole X m content) : Good X m (parseImageMaps env content) fun m' r => Whole X m' r := by
  unfold parseImageMaps
  exact Good.bind (imageMapLines_good env _ _ (Nat.le_refl _) m false hw.lines) fun l m1 _ hl => Good.pure fun _ h => (hl.mono h).join

theorem parseImages_good (env : ParserEnv) (hg : ∀ c, Growing (rec c)) (hX : env.config.list .ignoredMediaTypes = []) (fuel : Nat)
    (hw : Whole X m content) : Good X m (parseImages env rec fuel content) fun m' r => Whole X m' r := by
  unfold parseImages
  cases fuel with
  | zero => exact Good.running
  | succ fuel =>
    rw [imageLoop]
    cases hf : findLinkStart content 0 with
    | none => exact Good.pure fun _ h => hw.mono h
    | some p =>
      obtain ⟨start, stop⟩ := p
      simp only
      cases findClose content stop b!"[" b!"]" with
      | none => exact Good.panic
      | some endIndex =>
        simp only
        have hk : ∀ t, KeepsKeys (if endIndex + 2 ≤ content.length then imageLoop env rec fuel (content.take start ++ t ++ content.drop (endIndex + 2))
            else TokM.panic) := by
          intro t
          split
          · exact KeepsKeys.of (growing_imageLoop env hg _ _)
          · exact KeepsKeys.panic
        intro s a s' e himg hm hb
        exfalso
        obtain ⟨c1, s1, -, e⟩ := TokM.bind_ok.mp e
        obtain ⟨c2, s2, h2, e⟩ := TokM.bind_ok.mp e
        have himg2 : s2.images = [] := (KeepsKeys.bind (KeepsKeys.of (growing_imageKey env hg c2)) hk).run _ _ _ e himg
        exact (escapeImages_run h2 himg2).2.2 hX

/-! ### Lists -/

/-- All texts of these items are whole. -/
def ItemsWhole (X : Alphabet) (m : List (Str × Token)) (items : List ItemTok) : Prop := ∀ t ∈ itemsTexts items, Whole X m t

theorem itemsTexts_append (a b : List ItemTok) : itemsTexts (a ++ b) = itemsTexts a ++ itemsTexts b := by
  induction a with
  | nil => simp [itemsTexts]
  | cons x a ih => simp [itemsTexts, ih]

theorem listsTexts_append (a b : List ListTok) : listsTexts (a ++ b) = listsTexts a ++ listsTexts b := by
  induction a with
  | nil => simp [listsTexts]
  | cons x a ih => simp [listsTexts, ih]

theorem ItemsWhole.mono {m m' : List (Str × Token)} {l : List ItemTok} (h : ItemsWhole X m l) (hs : m <:+ m') : ItemsWhole X m' l :=
  fun t ht => (h t ht).mono hs

theorem ItemsWhole.append {a b : List ItemTok} (ha : ItemsWhole X m a) (hb : ItemsWhole X m b) : ItemsWhole X m (a ++ b) := by
  intro t ht
  rw [itemsTexts_append] at ht
  exact (List.mem_append.mp ht).elim (ha t) (hb t)

theorem addSubList_whole (p : Byte) {items : List ItemTok} {l : ListTok} (h : ItemsWhole X m items) (hl : ∀ t ∈ listTexts l, Whole X m t) :
    ItemsWhole X m (addSubList p items l) := by
  unfold addSubList
  cases hg : items.getLast? with
  | none =>
    intro t ht
    simp only [itemsTexts, itemTexts, listsTexts, List.append_nil, List.mem_cons] at ht
    rcases ht with rfl | ht
    · exact .nil
    · exact hl t ht
  | some x =>
    obtain ⟨type, text, subLists⟩ := x
    obtain ⟨rest, rfl⟩ := List.getLast?_eq_some_iff.mp hg
    intro t ht
    simp only [List.dropLast_concat, itemsTexts_append, itemsTexts, itemTexts, listsTexts_append, listsTexts, List.append_nil, List.mem_append,
      List.mem_cons] at ht
    have h' : ∀ t ∈ itemsTexts rest ++ (text :: listsTexts subLists), Whole X m t := by
      intro t ht
      refine h t ?_
      rw [itemsTexts_append]
      simpa [itemsTexts, itemTexts] using ht
    rcases ht with ht | ht | ht | ht
    · exact h' t (by simp [ht])
    · exact h' t (by simp [ht])
    · exact h' t (by simp [ht])
    · exact hl t ht

theorem lineItems_good (hr : RecGood X rec) (hg : ∀ c, Growing (rec c)) (p : Byte) {text : Str} (hw : Whole X m text) :
    Good X m (lineItems rec p text) fun m' r => ItemsWhole X m' r := by
  have one : ∀ {m} {t : Str} {type : ItemType}, Whole X m t → ItemsWhole X m [.mk type t []] := by
    intro m t type h x hx
    simp only [itemsTexts, itemTexts, listsTexts, List.append_nil, List.mem_singleton] at hx
    exact hx ▸ h
  unfold lineItems
  refine Good.ite (fun _ => ?_) fun _ => Good.ite (fun _ => ?_) fun _ => ?_
  · cases hc : Go.cut b!":" text with
    | none => exact Good.bind (hr m _ hw) fun t m1 h1 ht => Good.pure fun _ h => one (ht.mono h)
    | some ab =>
      obtain ⟨a, b⟩ := ab
      have hab := hw.cut_eq (by decide) hc
      refine Good.bind (hr m _ hab.1) fun t m1 h1 ht => ?_
      refine Good.bind (hr m1 _ (hab.2.mono h1)) fun u m2 h2 hu => Good.pure fun m3 h3 => ?_
      exact ItemsWhole.append (one (ht.mono (h2.trans h3))) (one (hu.mono h3))
  · exact Good.bind (hr m _ hw) fun t m1 h1 ht => Good.pure fun _ h => one (ht.mono h)
  · exact Good.bind (hr m _ hw) fun t m1 h1 ht => Good.pure fun _ h => one (ht.mono h)

theorem listChar_not_key {c : Byte} (h : isListChar c = true) : keyByte c = false := by
  unfold isListChar at h
  simp only [Bool.or_eq_true, decide_eq_true_eq] at h
  rcases h with ((rfl | rfl) | rfl) | rfl <;> decide

/-- Lines of a list. -/
def ListLines (X : Alphabet) (m : List (Str × Token)) (lines : List Str) : Prop :=
  ∀ l ∈ lines, Whole X m l ∧ ∀ c, l.head? = some c → isListChar c = true

theorem ListLines.mono {m m' : List (Str × Token)} {l : List Str} (h : ListLines X m l) (hs : m <:+ m') : ListLines X m' l :=
  fun t ht => ⟨(h t ht).1.mono hs, (h t ht).2⟩

theorem ListLines.tails {lines : List Str} (h : ListLines X m lines) : Wholes X m (lines.map List.tail) := by
  intro t ht
  obtain ⟨l, hl, rfl⟩ := List.mem_map.mp ht
  obtain ⟨h1, h2⟩ := h l hl
  cases l with
  | nil => exact .nil
  | cons c l => exact h1.tail (listChar_not_key (h2 c rfl))

theorem belongsTo_head {l : Str} {p : Byte} (hp : isListChar p = true) (h : belongsTo l p = true) : ∀ c, l.head? = some c → isListChar c = true := by
  intro c hc
  cases l with
  | nil => cases hc
  | cons d l =>
    cases hc
    unfold belongsTo at h
    simp only at h
    split at h
    · simp only [Bool.or_eq_true, decide_eq_true_eq] at h
      rcases h with rfl | rfl <;> rfl
    · simp only [decide_eq_true_eq] at h
      subst h
      exact hp

theorem ListLines.takeWhile {lines : List Str} {p : Byte} (hp : isListChar p = true) (h : Wholes X m lines) :
    ListLines X m (lines.takeWhile fun l => belongsTo l p) :=
  fun l hl => ⟨h l ((List.takeWhile_prefix _).subset hl), belongsTo_head hp (mem_takeWhile_imp (p := fun l => belongsTo l p) hl)⟩

theorem Wholes.trimmed {lines : List Str} (h : Wholes X m lines) : Wholes X m (lines.map trimSpace) := by
  intro t ht
  obtain ⟨l, hl, rfl⟩ := List.mem_map.mp ht
  exact (h l hl).trimSpace

theorem Wholes.drop {lines : List Str} (h : Wholes X m lines) (n : Nat) : Wholes X m (lines.drop n) := fun t ht => h t (List.mem_of_mem_drop ht)

theorem typeName_list (p : Byte) : TypeName (listTokenKey p) := by
  unfold listTokenKey
  split
  · decide
  · split <;> decide

theorem lists_good (hr : RecGood X rec) (hg : ∀ c, Growing (rec c)) (fuel : Nat) :
    (∀ m lines p, isListChar p = true → Wholes X m lines →
      Good X m (tokenizeList rec fuel lines p) fun m' r => (∀ t ∈ listTexts r.1, Whole X m' t) ∧ Whole X m' r.2.1) ∧
    (∀ m p lines items, ListLines X m lines → ItemsWhole X m items → Good X m (listItems rec fuel p lines items) fun m' r => ItemsWhole X m' r) := by
  induction fuel with
  | zero => exact ⟨fun _ _ _ _ _ => Good.running, fun _ _ _ _ _ _ => by rw [listItems]; exact Good.running⟩
  | succ fuel ih =>
    refine ⟨fun m lines p hp hw => ?_, fun m p lines items hl hi => ?_⟩
    · rw [tokenizeList]
      refine Good.bind (ih.2 m p _ [] (ListLines.takeWhile hp hw.trimmed) fun t ht => absurd ht (by simp [itemsTexts])) (fun items m1 h1 hit => ?_) ?_
      · refine Good.token (typeName_list p) (fun t ht => hit t (by simpa only [tokenTexts, listTexts] using ht)) fun key m2 h2 hkey => Good.pure fun m3 h3 => ⟨?_, hkey.mono h3⟩
        exact fun t ht => (hit.mono (h2.trans h3)) t (by simpa only [listTexts] using ht)
      · keeps
    · cases lines with
      | nil => rw [listItems]; exact Good.pure fun _ h => hi.mono h
      | cons line rest =>
        have hrest : ListLines X m rest := fun t ht => hl t (by simp [ht])
        cases line with
        | nil => rw [listItems]; exact ih.2 m p rest items hrest hi
        | cons c text =>
          have htext : Whole X m text := (hl (c :: text) (by simp)).1.tail (listChar_not_key ((hl (c :: text) (by simp)).2 c rfl))
          have plain : Good X m (lineItems rec c text >>= fun new => listItems rec fuel p rest (items ++ new)) fun m' r => ItemsWhole X m' r := by
            refine Good.bind (lineItems_good hr hg c htext) fun new m1 h1 hn => ?_
            exact ih.2 m1 p rest _ (hrest.mono h1) ((hi.mono h1).append hn)
          rw [listItems.eq_def]
          simp only
          cases text with
          | nil => exact plain
          | cons d t =>
            refine Good.ite (fun hd => ?_) fun _ => plain
            have htails := hl.tails
            refine Good.bind (ih.1 m _ d hd fun t ht => htails t ((List.takeWhile_prefix _).subset ht)) fun r m1 h1 hr1 => ?_
            refine ih.2 m1 p _ _ (fun t ht => (hl.mono h1) t (List.mem_of_mem_drop ht)) ?_
            exact addSubList_whole p (hi.mono h1) hr1.1

theorem parseListLines_good (hr : RecGood X rec) (hg : ∀ c, Growing (rec c)) (fuel : Nat) : ∀ m lines, Wholes X m lines →
    Good X m (parseListLines rec fuel lines) fun m' r => Wholes X m' r := by
  induction fuel with
  | zero => intro _ _ _; exact Good.running
  | succ fuel ih =>
    intro m lines hw
    cases lines with
    | nil => exact Good.pure fun _ h => hw.mono h
    | cons line rest =>
      have hrest : Wholes X m rest := fun t ht => hw t (by simp [ht])
      have plain : Good X m (parseListLines rec fuel rest >>= fun rest => (Pure.pure (line :: rest) : TokM (List Str))) fun m' r => Wholes X m' r :=
        Good.bind (ih m rest hrest) fun r m1 h1 hr => Good.pure fun m2 h2 => .cons ((hw line (by simp)).mono (h1.trans h2)) (hr.mono h2)
      rw [parseListLines]
      cases trimSpace line with
      | nil => exact plain
      | cons c _ =>
        refine Good.ite (fun hc => ?_) fun _ => plain
        refine Good.bind ((lists_good hr hg fuel).1 m (line :: rest) c hc hw) fun r m1 h1 hr1 => ?_
        refine Good.bind (ih m1 _ ((hw.mono h1).drop _)) fun rest m2 h2 hr2 => Good.pure fun m3 h3 => ?_
        exact .cons (hr1.2.mono (h2.trans h3)) (hr2.mono h3)

theorem parseLists_good (hr : RecGood X rec) (hg : ∀ c, Growing (rec c)) (fuel : Nat) (hw : Whole X m content) :
    Good X m (parseLists rec fuel content) fun m' r => Whole X m' r := by
  unfold parseLists
  exact Good.bind (parseListLines_good hr hg fuel m _ hw.lines) fun l m1 _ hl => Good.pure fun _ h => (hl.mono h).join

/-! ### Tables -/

theorem tableEntry_good (hr : RecGood X rec) (hg : ∀ c, Growing (rec c)) (hw : Whole X m content) :
    Good X m (tableEntry rec content) fun m' r => Whole X m' r.1 := by
  unfold tableEntry
  have hs := hw.split (sep := b!"|") (by decide)
  split
  · rename_i a text l e
    refine Good.bind (hr m _ (hs text (by rw [e]; simp))) fun t m1 h1 ht => Good.pure fun _ h => ht.mono h
  · exact Good.bind (hr m _ hw) fun t m1 h1 ht => Good.pure fun _ h => ht.mono h

theorem cellLines_whole (lines : List Str) : ∀ first p, Wholes X m lines → cellLines lines first = .ok p → Wholes X m p.1 ∧ Wholes X m p.2 := by
  induction lines with
  | nil => intro _ _ _ h; cases h
  | cons line rest ih =>
    intro first p hw h
    rw [cellLines] at h
    generalize hx : (if first then trimSpace line else line) = l at h
    have hl : Whole X m l := by
      rw [← hx]
      split
      · exact (hw line (by simp)).trimSpace
      · exact hw line (by simp)
    simp only at h
    split at h
    · cases h
      exact ⟨fun t ht => absurd ht (by simp), hw⟩
    · cases hc : cellLines rest false with
      | ok q =>
        rw [hc] at h
        cases h
        obtain ⟨h1, h2⟩ := ih false q (fun t ht => hw t (by simp [ht])) hc
        exact ⟨.cons hl h1, h2⟩
      | err => rw [hc] at h; cases h
      | panic => rw [hc] at h; cases h
      | fatal => rw [hc] at h; cases h

theorem captionLines_whole (lines : List Str) : ∀ p, Wholes X m lines → captionLines lines = .ok p → Wholes X m p.1 ∧ Wholes X m p.2 := by
  induction lines with
  | nil => intro _ _ h; cases h
  | cons line rest ih =>
    intro p hw h
    rw [captionLines] at h
    split at h
    · cases h
      exact ⟨fun t ht => absurd ht (by simp), hw⟩
    · cases hc : captionLines rest with
      | ok q =>
        rw [hc] at h
        cases h
        obtain ⟨h1, h2⟩ := ih q (fun t ht => hw t (by simp [ht])) hc
        exact ⟨.cons (hw line (by simp)).trimSpace h1, h2⟩
      | err => rw [hc] at h; cases h
      | panic => rw [hc] at h; cases h
      | fatal => rw [hc] at h; cases h

theorem Wholes.broken {lines : List Str} (h : Wholes X m lines) : Whole X m (lines.flatMap fun l => b!"\n" ++ l) := by
  induction lines with
  | nil => exact .nil
  | cons l rest ih =>
    rw [List.flatMap_cons]
    exact (whole_newline.append (h l (by simp))).append (ih fun t ht => h t (by simp [ht]))

/-- The texts of these cells are whole. -/
def ColsWhole (X : Alphabet) (m : List (Str × Token)) (cols : List TableCol) : Prop := ∀ c ∈ cols, Whole X m c.content

theorem tableRow_good (hr : RecGood X rec) (hg : ∀ c, Growing (rec c)) (fuel : Nat) : ∀ m lines, Wholes X m lines →
    Good X m (tableRow rec fuel lines) fun m' r => ColsWhole X m' r.1 ∧ Wholes X m' r.2 := by
  induction fuel with
  | zero => intro _ _ _; exact Good.running
  | succ fuel ih =>
    intro m lines hw
    cases lines with
    | nil => exact Good.pure fun _ h => ⟨fun t ht => absurd ht (by simp), hw.mono h⟩
    | cons line rest =>
      have hl := hw line (by simp)
      have hrest : Wholes X m rest := fun t ht => hw t (by simp [ht])
      rw [tableRow]
      refine Good.ite (fun _ => Good.pure fun _ h => ⟨fun t ht => absurd ht (by simp), hw.mono h⟩) fun _ => ?_
      refine Good.bind (Good.lift (P := fun m' p => Wholes X m' p.1 ∧ Wholes X m' p.2) ?_) (fun p m1 h1 hp => ?_)
        fun _ => KeepsKeys.bind (KeepsKeys.of (growing_tableEntry hg _)) fun _ => KeepsKeys.bind (KeepsKeys.of (growing_tableRow hg _ _)) fun _ => KeepsKeys.pure _
      · intro p e m' hm
        obtain ⟨h1, h2⟩ := cellLines_whole rest true p hrest e
        exact ⟨h1.mono hm, h2.mono hm⟩
      · obtain ⟨more, after⟩ := p
        simp only at hp ⊢
        refine Good.bind (tableEntry_good hr hg ?_) fun e m2 h2 he => ?_
        · exact ((((hl.mono h1).trimSpace.trimPrefix (by decide)).trimPrefix (by decide)).trimSpace).append hp.1.broken
        · refine Good.bind (ih m2 after (hp.2.mono h2)) fun q m3 h3 hq => Good.pure fun m4 h4 => ⟨?_, hq.2.mono h4⟩
          intro c hc
          rcases List.mem_cons.mp hc with rfl | hc
          · exact (he.mono (h3.trans h4)).trimSpace
          · exact (hq.1 c hc).mono h4

theorem tableCaption_good (hr : RecGood X rec) (hg : ∀ c, Growing (rec c)) {line : Str} {rest : List Str} (hl : Whole X m line) (hrest : Wholes X m rest) :
    Good X m (tableCaption rec line rest) fun m' r => Whole X m' r.1 ∧ Wholes X m' r.2 := by
  unfold tableCaption
  refine Good.bind (Good.lift (P := fun m' p => Wholes X m' p.1 ∧ Wholes X m' p.2) ?_) fun p m1 h1 hp => ?_
  · intro p e m' hm
    obtain ⟨h1, h2⟩ := captionLines_whole rest p hrest e
    exact ⟨h1.mono hm, h2.mono hm⟩
  · obtain ⟨more, after⟩ := p
    simp only at hp ⊢
    refine Good.bind (tableEntry_good hr hg ?_) fun e m2 h2 he => Good.pure fun m3 h3 => ⟨(he.mono h3).trimSpace, hp.2.mono (h2.trans h3)⟩
    exact ((hl.mono h1).trimSpace.append hp.1.broken).trimPrefix (by decide)

theorem keeps_tableCaption (hg : ∀ c, Growing (rec c)) (line : Str) (rest : List Str) : KeepsKeys (tableCaption rec line rest) := by
  unfold tableCaption
  keeps

/-- The texts of the cells of these rows are whole. -/
def RowsWhole (X : Alphabet) (m : List (Str × Token)) (rows : List (List TableCol)) : Prop := ∀ r ∈ rows, ColsWhole X m r

theorem RowsWhole.cons {r : List TableCol} {l : List (List TableCol)} (h : ColsWhole X m r) (h' : RowsWhole X m l) : RowsWhole X m (r :: l) := by
  intro x hx
  rcases List.mem_cons.mp hx with rfl | hx
  · exact h
  · exact h' x hx

theorem ColsWhole.mono {m m' : List (Str × Token)} {r : List TableCol} (h : ColsWhole X m r) (hs : m <:+ m') : ColsWhole X m' r := fun c hc => (h c hc).mono hs
theorem RowsWhole.mono {m m' : List (Str × Token)} {l : List (List TableCol)} (h : RowsWhole X m l) (hs : m <:+ m') : RowsWhole X m' l :=
  fun r hr => (h r hr).mono hs

theorem tableRows_good (hr : RecGood X rec) (hg : ∀ c, Growing (rec c)) (fuel : Nat) : ∀ m lines caption, Wholes X m lines → Whole X m caption →
    Good X m (tableRows rec fuel lines caption) fun m' r => RowsWhole X m' r.1 ∧ Whole X m' r.2 := by
  induction fuel with
  | zero => intro _ _ _ _ _; exact Good.running
  | succ fuel ih =>
    intro m lines caption hw hc
    have done : Good X m (Pure.pure ([], caption) : TokM (List (List TableCol) × Str)) fun m' r => RowsWhole X m' r.1 ∧ Whole X m' r.2 :=
      Good.pure fun _ h => ⟨fun t ht => absurd ht (by simp), hc.mono h⟩
    cases lines with
    | nil => exact done
    | cons line rest =>
      have hl := hw line (by simp)
      have hrest : Wholes X m rest := fun t ht => hw t (by simp [ht])
      have row : ∀ lines, Wholes X m lines → Good X m (tableRow rec fuel lines >>= fun p => tableRows rec fuel p.2 caption >>= fun q =>
          (Pure.pure (p.1 :: q.1, q.2) : TokM (List (List TableCol) × Str))) fun m' r => RowsWhole X m' r.1 ∧ Whole X m' r.2 := by
        intro lines hw
        refine Good.bind (tableRow_good hr hg fuel m lines hw) fun p m1 h1 hp => ?_
        refine Good.bind (ih m1 p.2 caption hp.2 (hc.mono h1)) fun q m2 h2 hq => Good.pure fun m3 h3 => ⟨?_, hq.2.mono h3⟩
        exact .cons (hp.1.mono (h2.trans h3)) (hq.1.mono h3)
      rw [tableRows.eq_def]
      simp only
      refine Good.ite (fun _ => ?_) fun _ => Good.ite (fun _ => row _ hw) fun _ => Good.ite (fun _ => ?_) fun _ =>
        Good.ite (fun _ => done) fun _ => Good.ite (fun _ => row _ hw) fun _ => ih m rest caption hrest hc
      · exact Good.bind (tableCaption_good hr hg hl hrest) fun p m1 h1 hp => ih m1 p.2 p.1 hp.2 hp.1
      · cases rest with
        | nil => exact Good.panic
        | cons next rest => exact Good.ite (fun _ => row _ hrest) fun _ => ih m _ caption hrest hc

theorem tokenizeTable_good (hr : RecGood X rec) (hg : ∀ c, Growing (rec c)) (fuel : Nat) (hw : Whole X m content) :
    Good X m (tokenizeTable rec fuel content) fun m' r => ∀ t ∈ tokenTexts r, Whole X m' t := by
  unfold tokenizeTable
  simp only
  have h1 : Whole X m (replaceAll (replaceAll content b!"||" b!"\n|") b!"!!" b!"\n!") :=
    (hw.replaceAll (by decide) (Whole.literal (by decide))).replaceAll (by decide) (Whole.literal (by decide))
  refine Good.bind (tableRows_good hr hg fuel m _ [] h1.lines .nil) fun p m1 h1 hp => Good.pure fun m2 h2 => ?_
  intro t ht
  simp only [tokenTexts, List.mem_append, List.mem_flatMap, List.mem_map, List.mem_singleton] at ht
  rcases ht with ⟨row, hrow, c, hc, rfl⟩ | rfl
  · exact (hp.1 row hrow c hc).mono h2
  · exact hp.2.mono h2

theorem tables_good (hr : RecGood X rec) (hg : ∀ c, Growing (rec c)) (fuel : Nat) :
    (∀ m line rest, Whole X m line → Wholes X m rest →
      Good X m (tokenizeTables rec fuel line rest) fun m' r => Whole X m' r.1 ∧ Wholes X m' r.2) ∧
    (∀ m lines, Wholes X m lines → Good X m (tableBody rec fuel lines) fun m' r => Wholes X m' r.1 ∧ Wholes X m' r.2) := by
  induction fuel with
  | zero => exact ⟨fun _ _ _ _ _ => by rw [tokenizeTables]; exact Good.running, fun _ _ _ => by rw [tableBody]; exact Good.running⟩
  | succ fuel ih =>
    refine ⟨fun m line rest hl hrest => ?_, fun m lines hw => ?_⟩
    · rw [tokenizeTables]
      refine Good.bind (ih.2 m rest hrest) fun p m1 h1 hp => ?_
      obtain ⟨lines, after⟩ := p
      simp only at hp ⊢
      refine Good.bind (tokenizeTable_good hr hg fuel (Wholes.join (.cons (hl.mono h1) hp.1))) fun token m2 h2 ht => ?_
      exact Good.token (by decide) ht fun key m3 h3 hkey => Good.pure fun m4 h4 => ⟨hkey.mono h4, hp.2.mono ((h2.trans h3).trans h4)⟩
    · cases lines with
      | nil => rw [tableBody]; exact Good.pure fun _ h => ⟨hw.mono h, hw.mono h⟩
      | cons line rest =>
        have hl := hw line (by simp)
        have hrest : Wholes X m rest := fun t ht => hw t (by simp [ht])
        rw [tableBody]
        simp only
        refine Good.ite (fun _ => ?_) fun _ => Good.ite (fun _ => ?_) fun _ => ?_
        · refine Good.bind (ih.1 m line rest hl hrest) fun p m1 h1 hp => ?_
          obtain ⟨key, after⟩ := p
          simp only at hp ⊢
          refine Good.bind (ih.2 m1 after hp.2) fun q m2 h2 hq => Good.pure fun m3 h3 => ⟨?_, hq.2.mono h3⟩
          exact .cons (hp.1.mono (h2.trans h3)) (hq.1.mono h3)
        · exact Good.pure fun _ h => ⟨.cons (hl.mono h) fun t ht => absurd ht (by simp), hrest.mono h⟩
        · refine Good.bind (ih.2 m rest hrest) fun q m2 h2 hq => Good.pure fun m3 h3 => ⟨?_, hq.2.mono h3⟩
          exact .cons (hl.mono (h2.trans h3)) (hq.1.mono h3)

theorem matchTableStart_whole {line listPrefix : Str} (hw : Whole X m line) (h : matchTableStart line = some listPrefix) : Whole X m listPrefix := by
  unfold matchTableStart at h
  split at h
  · cases h
    have e : line = line.takeWhile (fun c => decide (c = (0x3A : Byte))) ++ line.dropWhile (fun c => decide (c = (0x3A : Byte))) :=
      List.takeWhile_append_dropWhile.symm
    refine (hw.cut e ?_).1
    by_cases h0 : line.takeWhile (fun c => decide (c = (0x3A : Byte))) = []
    · exact .inl h0
    · refine .inr (.inr (.inl ⟨(line.takeWhile (fun c => decide (c = (0x3A : Byte)))).getLast h0, List.getLast?_eq_some_getLast _, ?_⟩))
      have := mem_takeWhile_imp (List.getLast_mem h0)
      rw [decide_eq_true_eq] at this
      rw [this]
      decide
  · cases h

theorem tableLoop_good (hr : RecGood X rec) (hg : ∀ c, Growing (rec c)) (fuel : Nat) : ∀ m lines, Wholes X m lines →
    Good X m (tableLoop rec fuel lines) fun m' r => Wholes X m' r := by
  induction fuel with
  | zero => intro _ _ _; exact Good.running
  | succ fuel ih =>
    intro m lines hw
    cases lines with
    | nil => exact Good.pure fun _ h => hw.mono h
    | cons line rest =>
      have hl := hw line (by simp)
      have hrest : Wholes X m rest := fun t ht => hw t (by simp [ht])
      rw [tableLoop]
      cases hm : matchTableStart (trimSpace line) with
      | none =>
        exact Good.bind (ih m rest hrest) fun r m1 h1 hr => Good.pure fun m2 h2 => .cons (hl.mono (h1.trans h2)) (hr.mono h2)
      | some listPrefix =>
        have hp := matchTableStart_whole hl.trimSpace hm
        refine Good.bind ((tables_good hr hg fuel).1 m line rest hl hrest) fun p m1 h1 hp1 => ?_
        obtain ⟨key, after⟩ := p
        simp only at hp1 ⊢
        refine Good.bind (ih m1 after hp1.2) fun q m2 h2 hq => Good.pure fun m3 h3 => ?_
        exact .cons ((hp.mono ((h1.trans h2).trans h3)).append (hp1.1.mono (h2.trans h3))) (hq.mono h3)

theorem parseTables_good (hr : RecGood X rec) (hg : ∀ c, Growing (rec c)) (fuel : Nat) (hw : Whole X m content) :
    Good X m (parseTables rec fuel content) fun m' r => Whole X m' r := by
  unfold parseTables
  exact Good.bind (tableLoop_good hr hg fuel m _ hw.lines) fun l m1 _ hl => Good.pure fun _ h => (hl.mono h).join

/-! ### The whole tokenizer -/

theorem keeps_parseTables (hg : ∀ c, Growing (rec c)) (fuel : Nat) (content : Str) : KeepsKeys (parseTables rec fuel content) := by
  unfold parseTables; keeps
theorem keeps_parseLists (hg : ∀ c, Growing (rec c)) (fuel : Nat) (content : Str) : KeepsKeys (parseLists rec fuel content) := by
  unfold parseLists; keeps
theorem keeps_parseGalleries (env : ParserEnv) (content : Str) : KeepsKeys (parseGalleries env content) := by
  unfold parseGalleries; keeps
theorem keeps_parseImageMaps (env : ParserEnv) (content : Str) : KeepsKeys (parseImageMaps env content) :=
  KeepsKeys.bind (keeps_imageMapLines env _ _) fun _ => KeepsKeys.pure _

theorem tokenizePass_good (env : ParserEnv) (hX : env.config.list .ignoredMediaTypes = []) (hr : RecGood X rec)
    (hg : ∀ c, Growing (rec c)) (fuel : Nat) (hw : Whole X m content) : Good X m (tokenizePass env rec fuel content) fun m' r => Whole X m' r := by
  have k12 : ∀ c, KeepsKeys (Pure.pure (parseParagraphs c) : TokM Str) := fun _ => KeepsKeys.pure _
  have k11 := fun c => KeepsKeys.bind (keeps_parseTables hg fuel c) k12
  have k10 := fun c => KeepsKeys.bind (keeps_parseLists hg fuel c) k11
  have k9 := fun c => KeepsKeys.bind (KeepsKeys.of (growing_parseMath c)) k10
  have k8 := fun c => KeepsKeys.bind (KeepsKeys.of (growing_parseLink env hg externalSyntax c)) k9
  have k7 := fun c => KeepsKeys.bind (KeepsKeys.of (growing_imageLoop env hg fuel c)) k8
  have k6 := fun c => KeepsKeys.bind (keeps_parseImageMaps env c) k7
  have k5 := fun c => KeepsKeys.bind (keeps_parseGalleries env c) k6
  have k4 := fun c => KeepsKeys.bind (KeepsKeys.of (growing_parseLink env hg internalSyntax c)) k5
  have k3 := fun c => KeepsKeys.bind (KeepsKeys.of (growing_refLoop hg fuel c 0 { contents := [], names := [], counters := [], within := false, placeholderGroup := [] })) k4
  have k2 := fun c => KeepsKeys.bind (KeepsKeys.of (growing_parseHeadings hg c)) k3
  have k1 := fun c => KeepsKeys.bind (KeepsKeys.of (growing_parseBoldAndItalic fuel c)) k2
  unfold tokenizePass
  refine Good.bind (parseNowiki_good fuel hw) (fun c m _ hw => ?_) k1
  refine Good.bind (parseBoldAndItalic_good fuel hw) (fun c m _ hw => ?_) k2
  refine Good.bind (parseHeadings_good hr hg hw) (fun c m _ hw => ?_) k3
  refine Good.bind (parseReferences_good hr hg fuel hw) (fun c m _ hw => ?_) k4
  refine Good.bind (parseInternalLinks_good env hr hg hw) (fun c m _ hw => ?_) k5
  refine Good.bind (parseGalleries_good env hw) (fun c m _ hw => ?_) k6
  refine Good.bind (parseImageMaps_good env hw) (fun c m _ hw => ?_) k7
  refine Good.bind (parseImages_good env hg hX fuel hw) (fun c m _ hw => ?_) k8
  refine Good.bind (parseExternalLinks_good env hr hg hw) (fun c m _ hw => ?_) k9
  refine Good.bind (parseMath_good hw) (fun c m _ hw => ?_) k10
  refine Good.bind (parseLists_good hr hg fuel hw) (fun c m _ hw => ?_) k11
  refine Good.bind (parseTables_good hr hg fuel hw) (fun c m _ hw => ?_) k12
  exact Good.pure fun _ h => parseParagraphs_whole (hw.mono h)

/-- Tokenizing keeps keys complete if there are no images. -/
theorem tokenizeContent_good (env : ParserEnv) (hX : env.config.list .ignoredMediaTypes = []) (fuel : Nat) :
    RecGood X (tokenizeContent env fuel) := by
  induction fuel with
  | zero => intro _ _ _; exact Good.running
  | succ fuel ih =>
    intro m t hw
    rw [tokenizeContent]
    refine Good.bind (tokenizePass_good env hX ih (growing_tokenizeContent env fuel) fuel hw) (fun new m1 h1 hn => ?_) ?_
    · exact Good.ite (fun _ => Good.pure fun _ h => hn.mono h) fun _ => ih m1 new hn
    · intro new
      split
      · exact KeepsKeys.pure _
      · exact KeepsKeys.of (growing_tokenizeContent env fuel _)

end Verif.Lemmas
