import Verif.Lemmas.WholePasses

/-!
# Without images the tokenizer does the same whatever types of images are ignored
-/

namespace Verif.Lemmas
open Verif.Go Verif.Model Verif.Spec
open scoped List

variable {α β : Type} {rec rec' : Rec}

/-- If `f'` has a result without images, then `f` has the same result. -/
structure Follows (f f' : TokM α) : Prop where
  run : ∀ s a s', f' s = some (.ok (a, s')) → s'.images = [] → f s = some (.ok (a, s'))

theorem Follows.refl (f : TokM α) : Follows f f := ⟨fun _ _ _ h _ => h⟩

theorem Follows.rec_of (h : ∀ c, Follows (rec c) (rec' c)) (c : Str) : Follows (rec c) (rec' c) := h c

theorem Follows.bind {f f' : TokM α} {g g' : α → TokM β} (hf : Follows f f') (hg : ∀ a, Follows (g a) (g' a)) (hk : ∀ a, KeepsKeys (g' a)) :
    Follows (f >>= g) (f' >>= g') := by
  constructor
  intro s b s'' e hi
  obtain ⟨a, s', h1, h2⟩ := TokM.bind_ok.mp e
  exact TokM.bind_ok.mpr ⟨a, s', hf.run s a s' h1 ((hk a).run s' b s'' h2 hi), (hg a).run s' b s'' h2 hi⟩

theorem Follows.ite {c : Prop} [Decidable c] {f f' g g' : TokM α} (hf : Follows f f') (hg : Follows g g') :
    Follows (if c then f else g) (if c then f' else g') := by
  split
  · exact hf
  · exact hg

/-- Proves `Follows` for sequences of known steps. -/
macro "follows" : tactic => `(tactic| repeat' (first
  | intro _
  | exact Follows.rec_of (by assumption) _
  | exact Follows.refl _
  | refine Follows.ite ?_ ?_
  | refine Follows.bind ?_ ?_ (by keeps)))

variable (hr : ∀ c, Follows (rec c) (rec' c)) (hg : ∀ c, Growing (rec' c))
include hr hg

theorem headingLines_follows (d : Nat) (l : List Str) : Follows (headingLines rec d l) (headingLines rec' d l) := by
  induction l with
  | nil => exact Follows.refl _
  | cons line l ih =>
    rw [headingLines, headingLines]
    refine Follows.bind ?_ (fun _ => Follows.bind ih (fun _ => Follows.refl _) (by keeps)) (by keeps)
    unfold headingLine
    follows

theorem headingDepths_follows (d : Nat) : ∀ l : List Str, Follows (headingDepths rec d l) (headingDepths rec' d l) := by
  induction d with
  | zero => intro l; exact Follows.refl _
  | succ d ih =>
    intro l
    rw [headingDepths, headingDepths]
    exact Follows.bind (headingLines_follows hr hg _ _) (fun _ => ih _) (by keeps)

theorem parseHeadings_follows (content : Str) : Follows (parseHeadings rec content) (parseHeadings rec' content) :=
  Follows.bind (headingDepths_follows hr hg _ _) (fun _ => Follows.refl _) (by keeps)

theorem refTag_follows (content : Str) (i startEnd : Nat) (st : RefState) : Follows (refTag rec content i startEnd st) (refTag rec' content i startEnd st) := by
  unfold refTag
  refine Follows.ite (Follows.refl _) (Follows.ite (Follows.refl _) ?_)
  have hk : ∀ name group, KeepsKeys (if content[startEnd - 1]? = some 0x2F then namedReferenceUsage content i startEnd name group st
      else match findCloseIgnoreCase content startEnd b!"<ref" b!"</ref>" with
        | none => TokM.panic
        | some refEnd => referenceDefinition rec' content i startEnd refEnd name group st) := by
    intro name group
    split
    · unfold namedReferenceUsage; keeps
    · split
      · exact KeepsKeys.panic
      · unfold referenceDefinition; keeps
  refine Follows.bind (Follows.refl _) (fun name => Follows.bind (Follows.refl _) (fun group => Follows.ite (Follows.refl _) ?_) (hk _))
    (fun _ => KeepsKeys.bind (KeepsKeys.lift _) fun _ => hk _ _)
  cases findCloseIgnoreCase content startEnd b!"<ref" b!"</ref>" with
  | none => exact Follows.refl _
  | some refEnd =>
    unfold referenceDefinition
    follows

theorem refLoop_follows (fuel : Nat) : ∀ (content : Str) (i : Nat) (st : RefState), Follows (refLoop rec fuel content i st) (refLoop rec' fuel content i st) := by
  induction fuel with
  | zero => intro _ _ _; exact Follows.refl _
  | succ fuel ih =>
    intro content i st
    rw [refLoop, refLoop]
    refine Follows.ite (Follows.ite ?_ (ih _ _ _)) (Follows.refl _)
    cases findCloseIgnoreCase content (i + 4) b!"<ref" b!">" with
    | none => exact Follows.refl _
    | some startEnd => exact Follows.bind (refTag_follows hr hg _ _ _ _) (fun _ => ih _ _ _) (by keeps)

theorem linkKey_follows (x : LinkSyntax) (target text segment : Str) : Follows (linkKey rec x target text segment) (linkKey rec' x target text segment) := by
  unfold linkKey
  refine Follows.bind ?_ (fun _ => Follows.refl _) (by keeps)
  unfold linkToken
  follows

theorem linkSegments_follows {env env' : ParserEnv} (he : ∀ item, isFileLink env item = isFileLink env' item) (x : LinkSyntax) (l : List Str) :
    Follows (linkSegments env rec x l) (linkSegments env' rec' x l) := by
  induction l with
  | nil => exact Follows.refl _
  | cons item l ih =>
    rw [linkSegments, linkSegments]
    refine Follows.bind ?_ (fun _ => Follows.bind ih (fun _ => Follows.refl _) (by keeps)) (by keeps)
    unfold linkSegment
    rw [he]
    refine Follows.ite (Follows.refl _) ?_
    refine Follows.bind (Follows.refl _) (fun t => ?_) fun t => ?_
    · cases t with
      | none => exact Follows.refl _
      | some text => exact Follows.bind (linkKey_follows hr hg _ _ _ _) (fun _ => Follows.refl _) (by keeps)
    · cases t with
      | none => exact KeepsKeys.pure _
      | some text => exact KeepsKeys.bind (keeps_linkKey hg _ _ _ _) fun _ => KeepsKeys.pure _

theorem parseLink_follows {env env' : ParserEnv} (he : ∀ item, isFileLink env item = isFileLink env' item) (x : LinkSyntax) (content : Str) :
    Follows (parseLink env rec x content) (parseLink env' rec' x content) :=
  Follows.bind (linkSegments_follows hr hg he x _) (fun _ => Follows.refl _) (by keeps)

theorem lineItems_follows (p : Byte) (text : Str) : Follows (lineItems rec p text) (lineItems rec' p text) := by
  unfold lineItems
  cases Go.cut b!":" text with
  | none => follows
  | some ab => follows

theorem lists_follows (fuel : Nat) : (∀ lines p, Follows (tokenizeList rec fuel lines p) (tokenizeList rec' fuel lines p)) ∧
    (∀ p lines items, Follows (listItems rec fuel p lines items) (listItems rec' fuel p lines items)) := by
  induction fuel with
  | zero => exact ⟨fun _ _ => Follows.refl _, fun _ _ _ => by rw [listItems, listItems]; exact Follows.refl _⟩
  | succ fuel ih =>
    refine ⟨fun lines p => ?_, fun p lines items => ?_⟩
    · rw [tokenizeList, tokenizeList]
      exact Follows.bind (ih.2 _ _ _) (fun _ => Follows.refl _) (by keeps)
    · cases lines with
      | nil => rw [listItems, listItems]; exact Follows.refl _
      | cons line rest =>
        cases line with
        | nil => rw [listItems, listItems]; exact ih.2 _ _ _
        | cons c text =>
          have plain : Follows (lineItems rec c text >>= fun new => listItems rec fuel p rest (items ++ new))
              (lineItems rec' c text >>= fun new => listItems rec' fuel p rest (items ++ new)) :=
            Follows.bind (lineItems_follows hr hg _ _) (fun _ => ih.2 _ _ _) (by keeps)
          rw [listItems.eq_def, listItems.eq_def]
          simp only
          cases text with
          | nil => exact plain
          | cons d t => exact Follows.ite (Follows.bind (ih.1 _ _) (fun _ => ih.2 _ _ _) (by keeps)) plain

theorem parseListLines_follows (fuel : Nat) : ∀ lines, Follows (parseListLines rec fuel lines) (parseListLines rec' fuel lines) := by
  induction fuel with
  | zero => intro _; exact Follows.refl _
  | succ fuel ih =>
    intro lines
    cases lines with
    | nil => exact Follows.refl _
    | cons line rest =>
      have plain : Follows (parseListLines rec fuel rest >>= fun rest => (Pure.pure (line :: rest) : TokM (List Str)))
          (parseListLines rec' fuel rest >>= fun rest => (Pure.pure (line :: rest) : TokM (List Str))) :=
        Follows.bind (ih _) (fun _ => Follows.refl _) (by keeps)
      rw [parseListLines, parseListLines]
      cases trimSpace line with
      | nil => exact plain
      | cons c _ =>
        refine Follows.ite (Follows.bind ((lists_follows hr hg fuel).1 _ _) (fun _ => ?_) (by keeps)) plain
        exact Follows.bind (ih _) (fun _ => Follows.refl _) (by keeps)

theorem parseLists_follows (fuel : Nat) (content : Str) : Follows (parseLists rec fuel content) (parseLists rec' fuel content) :=
  Follows.bind (parseListLines_follows hr hg _ _) (fun _ => Follows.refl _) (by keeps)

theorem tableEntry_follows (content : Str) : Follows (tableEntry rec content) (tableEntry rec' content) := by
  unfold tableEntry
  generalize Go.split content b!"|" = l
  match l with
  | [] => follows
  | [_] => follows
  | _ :: _ :: _ => follows

theorem tableRow_follows (fuel : Nat) : ∀ lines, Follows (tableRow rec fuel lines) (tableRow rec' fuel lines) := by
  induction fuel with
  | zero => intro _; exact Follows.refl _
  | succ fuel ih =>
    intro lines
    cases lines with
    | nil => exact Follows.refl _
    | cons line rest =>
      rw [tableRow, tableRow]
      refine Follows.ite (Follows.refl _) ?_
      have k : ∀ (p : List TableCol × List Str → TokM (List TableCol × List Str)) lines, (∀ a, KeepsKeys (p a)) → KeepsKeys (tableRow rec' fuel lines >>= p) :=
        fun p lines h => KeepsKeys.bind (KeepsKeys.of (growing_tableRow hg _ _)) h
      refine Follows.bind (Follows.refl _) (fun p => ?_) fun p => KeepsKeys.bind (KeepsKeys.of (growing_tableEntry hg _)) fun _ => k _ _ fun _ => KeepsKeys.pure _
      obtain ⟨more, after⟩ := p
      refine Follows.bind (tableEntry_follows hr hg _) (fun q => ?_) fun q => k _ _ fun _ => KeepsKeys.pure _
      exact Follows.bind (ih _) (fun _ => Follows.refl _) fun _ => KeepsKeys.pure _

theorem tableCaption_follows (line : Str) (rest : List Str) : Follows (tableCaption rec line rest) (tableCaption rec' line rest) := by
  unfold tableCaption
  refine Follows.bind (Follows.refl _) (fun p => ?_) (by keeps)
  exact Follows.bind (tableEntry_follows hr hg _) (fun _ => Follows.refl _) (by keeps)

theorem tableRows_follows (fuel : Nat) : ∀ lines caption, Follows (tableRows rec fuel lines caption) (tableRows rec' fuel lines caption) := by
  induction fuel with
  | zero => intro _ _; exact Follows.refl _
  | succ fuel ih =>
    intro lines caption
    cases lines with
    | nil => exact Follows.refl _
    | cons line rest =>
      have row : ∀ lines, Follows
          (tableRow rec fuel lines >>= fun p => tableRows rec fuel p.2 caption >>= fun q => (Pure.pure (p.1 :: q.1, q.2) : TokM (List (List TableCol) × Str)))
          (tableRow rec' fuel lines >>= fun p => tableRows rec' fuel p.2 caption >>= fun q => (Pure.pure (p.1 :: q.1, q.2) : TokM (List (List TableCol) × Str))) :=
        fun lines => Follows.bind (tableRow_follows hr hg _ _) (fun _ => Follows.bind (ih _ _) (fun _ => Follows.refl _) (by keeps)) (by keeps)
      rw [tableRows.eq_def, tableRows.eq_def]
      simp only
      refine Follows.ite (Follows.bind (tableCaption_follows hr hg _ _) (fun _ => ih _ _) (by keeps)) (Follows.ite (row _) (Follows.ite ?_
        (Follows.ite (Follows.refl _) (Follows.ite (row _) (ih _ _)))))
      cases rest with
      | nil => exact Follows.refl _
      | cons next rest => exact Follows.ite (row _) (ih _ _)

theorem tokenizeTable_follows (fuel : Nat) (content : Str) : Follows (tokenizeTable rec fuel content) (tokenizeTable rec' fuel content) :=
  Follows.bind (tableRows_follows hr hg _ _ _) (fun _ => Follows.refl _) (by keeps)

theorem tables_follows (fuel : Nat) : (∀ line rest, Follows (tokenizeTables rec fuel line rest) (tokenizeTables rec' fuel line rest)) ∧
    (∀ lines, Follows (tableBody rec fuel lines) (tableBody rec' fuel lines)) := by
  induction fuel with
  | zero => exact ⟨fun _ _ => by rw [tokenizeTables, tokenizeTables]; exact Follows.refl _, fun _ => by rw [tableBody, tableBody]; exact Follows.refl _⟩
  | succ fuel ih =>
    refine ⟨fun line rest => ?_, fun lines => ?_⟩
    · rw [tokenizeTables, tokenizeTables]
      refine Follows.bind (ih.2 _) (fun _ => ?_) (by keeps)
      exact Follows.bind (tokenizeTable_follows hr hg _ _) (fun _ => Follows.refl _) (by keeps)
    · cases lines with
      | nil => rw [tableBody, tableBody]; exact Follows.refl _
      | cons line rest =>
        rw [tableBody, tableBody]
        refine Follows.ite ?_ (Follows.ite (Follows.refl _) ?_)
        · exact Follows.bind (ih.1 _ _) (fun _ => Follows.bind (ih.2 _) (fun _ => Follows.refl _) (by keeps)) (by keeps)
        · exact Follows.bind (ih.2 _) (fun _ => Follows.refl _) (by keeps)

theorem tableLoop_follows (fuel : Nat) : ∀ lines, Follows (tableLoop rec fuel lines) (tableLoop rec' fuel lines) := by
  induction fuel with
  | zero => intro _; exact Follows.refl _
  | succ fuel ih =>
    intro lines
    cases lines with
    | nil => exact Follows.refl _
    | cons line rest =>
      rw [tableLoop, tableLoop]
      cases matchTableStart (trimSpace line) with
      | none => exact Follows.bind (ih _) (fun _ => Follows.refl _) (by keeps)
      | some p => exact Follows.bind ((tables_follows hr hg fuel).1 _ _) (fun _ => Follows.bind (ih _) (fun _ => Follows.refl _) (by keeps)) (by keeps)

theorem parseTables_follows (fuel : Nat) (content : Str) : Follows (parseTables rec fuel content) (parseTables rec' fuel content) :=
  Follows.bind (tableLoop_follows hr hg _ _) (fun _ => Follows.refl _) (by keeps)

omit hr hg

/-! ### Images -/

variable {env env' : ParserEnv} (hI : env'.config.list .ignoredMediaTypes = [])
include hI

theorem escapeImages_follows (c : Str) (f : TokM Str) : Follows f (escapeImages env' c) := by
  constructor
  intro s a s' e hi
  exact absurd hI (escapeImages_run e hi).2.2

theorem galleryImage_follows (c : Str) : Follows (galleryImage env c) (galleryImage env' c) :=
  Follows.bind (escapeImages_follows hI _ _) (fun _ => Follows.refl _) (by keeps)

theorem galleryLines_follows (l : List Str) : ∀ within, Follows (galleryLines env l within) (galleryLines env' l within) := by
  induction l with
  | nil => intro _; exact Follows.refl _
  | cons line rest ih =>
    intro within
    rw [galleryLines, galleryLines]
    simp only
    refine Follows.ite (Follows.ite (ih _) (Follows.bind (ih _) (fun _ => Follows.refl _) (by keeps))) ?_
    generalize (match matchGallery (trimSpace line) with
      | some after => (true, after)
      | none => (within, trimSpace line)) = p
    obtain ⟨within', trimmed⟩ := p
    refine Follows.ite (Follows.ite (ih _) ?_) (Follows.bind (ih _) (fun _ => Follows.refl _) (by keeps))
    exact Follows.bind (galleryImage_follows hI _) (fun _ => Follows.bind (ih _) (fun _ => Follows.refl _) (by keeps)) (by keeps)

theorem parseGalleries_follows (content : Str) : Follows (parseGalleries env content) (parseGalleries env' content) :=
  Follows.bind (galleryLines_follows hI _ _) (fun _ => Follows.refl _) (by keeps)

theorem imageMapLines_follows (n : Nat) : ∀ lines : List Str, lines.length ≤ n → ∀ within,
    Follows (imageMapLines env lines within) (imageMapLines env' lines within) := by
  have hk : ∀ (image : Str) rest, KeepsKeys (do
      let rest ← imageMapLines env' rest true
      pure ((b!"[[" ++ image ++ b!"]]") :: rest)) := fun _ _ => KeepsKeys.bind (keeps_imageMapLines _ _ _) fun _ => KeepsKeys.pure _
  induction n with
  | zero =>
    intro lines hn within
    have : lines = [] := List.length_eq_zero_iff.mp (by omega)
    subst this
    exact Follows.refl _
  | succ n ih =>
    intro lines hn within
    cases lines with
    | nil => exact Follows.refl _
    | cons line rest =>
      have hn' : rest.length ≤ n := by simpa using hn
      rw [imageMapLines.eq_def, imageMapLines.eq_def]
      simp only
      refine Follows.ite (ih _ hn' _) (Follows.ite (ih _ hn' _) ?_)
      cases matchImagemap line with
      | none => exact Follows.bind (ih _ hn' _) (fun _ => Follows.refl _) (by keeps)
      | some after =>
        simp only
        refine Follows.ite ?_ ?_
        · cases rest with
          | nil => exact Follows.refl _
          | cons next rest =>
            refine Follows.bind (escapeImages_follows hI _ _) (fun _ => ?_) fun _ => hk _ _
            exact Follows.bind (ih _ (by simp only [List.length_cons] at hn'; omega) _) (fun _ => Follows.refl _) (by keeps)
        · refine Follows.bind (escapeImages_follows hI _ _) (fun _ => ?_) fun _ => hk _ _
          exact Follows.bind (ih _ hn' _) (fun _ => Follows.refl _) (by keeps)

theorem parseImageMaps_follows (content : Str) : Follows (parseImageMaps env content) (parseImageMaps env' content) :=
  Follows.bind (imageMapLines_follows hI _ _ (Nat.le_refl _) _) (fun _ => Follows.refl _) (by keeps)

theorem parseImages_follows (hr : ∀ c, Follows (rec c) (rec' c)) (hg : ∀ c, Growing (rec' c)) (fuel : Nat) (content : Str) :
    Follows (parseImages env rec fuel content) (parseImages env' rec' fuel content) := by
  unfold parseImages
  cases fuel with
  | zero => exact Follows.refl _
  | succ fuel =>
    rw [imageLoop, imageLoop]
    cases findLinkStart content 0 with
    | none => exact Follows.refl _
    | some p =>
      obtain ⟨start, stop⟩ := p
      simp only
      cases findClose content stop b!"[" b!"]" with
      | none => exact Follows.refl _
      | some endIndex =>
        simp only
        have hk : ∀ t, KeepsKeys (if endIndex + 2 ≤ content.length then imageLoop env' rec' fuel (content.take start ++ t ++ content.drop (endIndex + 2))
            else TokM.panic) := by
          intro t
          split
          · exact KeepsKeys.of (growing_imageLoop env' hg _ _)
          · exact KeepsKeys.panic
        constructor
        intro s a s' e himg
        exfalso
        obtain ⟨c1, s1, -, e⟩ := TokM.bind_ok.mp e
        obtain ⟨c2, s2, h2, e⟩ := TokM.bind_ok.mp e
        have himg2 : s2.images = [] := (KeepsKeys.bind (KeepsKeys.of (growing_imageKey env' hg c2)) hk).run _ _ _ e himg
        exact (escapeImages_run h2 himg2).2.2 hI

/-! ### The whole tokenizer -/

theorem tokenizePass_follows (he : ∀ item, isFileLink env item = isFileLink env' item) (hr : ∀ c, Follows (rec c) (rec' c))
    (hg : ∀ c, Growing (rec' c)) (fuel : Nat) (content : Str) : Follows (tokenizePass env rec fuel content) (tokenizePass env' rec' fuel content) := by
  have k12 : ∀ c, KeepsKeys (Pure.pure (parseParagraphs c) : TokM Str) := fun _ => KeepsKeys.pure _
  have k11 := fun c => KeepsKeys.bind (keeps_parseTables hg fuel c) k12
  have k10 := fun c => KeepsKeys.bind (keeps_parseLists hg fuel c) k11
  have k9 := fun c => KeepsKeys.bind (KeepsKeys.of (growing_parseMath c)) k10
  have k8 := fun c => KeepsKeys.bind (KeepsKeys.of (growing_parseLink env' hg externalSyntax c)) k9
  have k7 := fun c => KeepsKeys.bind (KeepsKeys.of (growing_imageLoop env' hg fuel c)) k8
  have k6 := fun c => KeepsKeys.bind (keeps_parseImageMaps env' c) k7
  have k5 := fun c => KeepsKeys.bind (keeps_parseGalleries env' c) k6
  have k4 := fun c => KeepsKeys.bind (KeepsKeys.of (growing_parseLink env' hg internalSyntax c)) k5
  have k3 := fun c => KeepsKeys.bind (KeepsKeys.of (growing_refLoop hg fuel c 0 { contents := [], names := [], counters := [], within := false, placeholderGroup := [] })) k4
  have k2 := fun c => KeepsKeys.bind (KeepsKeys.of (growing_parseHeadings hg c)) k3
  have k1 := fun c => KeepsKeys.bind (KeepsKeys.of (growing_parseBoldAndItalic fuel c)) k2
  unfold tokenizePass
  refine Follows.bind (Follows.refl _) (fun c => ?_) k1
  refine Follows.bind (Follows.refl _) (fun c => ?_) k2
  refine Follows.bind (parseHeadings_follows hr hg c) (fun c => ?_) k3
  refine Follows.bind (refLoop_follows hr hg fuel c 0 _) (fun c => ?_) k4
  refine Follows.bind (parseLink_follows hr hg he _ c) (fun c => ?_) k5
  refine Follows.bind (parseGalleries_follows hI c) (fun c => ?_) k6
  refine Follows.bind (parseImageMaps_follows hI c) (fun c => ?_) k7
  refine Follows.bind (parseImages_follows hI hr hg fuel c) (fun c => ?_) k8
  refine Follows.bind (parseLink_follows hr hg he _ c) (fun c => ?_) k9
  refine Follows.bind (Follows.refl _) (fun c => ?_) k10
  refine Follows.bind (parseLists_follows hr hg fuel c) (fun c => ?_) k11
  exact Follows.bind (parseTables_follows hr hg fuel c) (fun c => Follows.refl _) k12

theorem tokenizeContent_follows (he : ∀ item, isFileLink env item = isFileLink env' item) (fuel : Nat) :
    ∀ content, Follows (tokenizeContent env fuel content) (tokenizeContent env' fuel content) := by
  induction fuel with
  | zero => intro _; exact Follows.refl _
  | succ fuel ih =>
    intro content
    rw [tokenizeContent, tokenizeContent]
    refine Follows.bind (tokenizePass_follows hI he ih (growing_tokenizeContent env' fuel) fuel content) (fun new => Follows.ite (Follows.refl _) (ih _)) fun new => ?_
    split
    · exact KeepsKeys.pure _
    · exact KeepsKeys.of (growing_tokenizeContent env' fuel _)

end Verif.Lemmas
