import Verif.Spec.Images
import Verif.Lemmas.Tokens
import Verif.Lemmas.Wikipedia
import Verif.Lemmas.WikiLinks
import Verif.Lemmas.Space

/-!
# The images of an article and the images that are downloaded
-/

namespace Verif.Model
open Verif.Go Verif.Spec

/-- The part of the tokenizer creates only images that are to be downloaded. -/
def Registers {α : Type} (m : TokM α) : Prop :=
  ∀ s a s', m s = some (.ok (a, s')) → PicturesRequested s → PicturesRequested s'

theorem Registers.pure {α : Type} (a : α) : Registers (pure a : TokM α) := by
  intro s a' s' h hs
  cases h
  exact hs

theorem Registers.bind {α β : Type} {m : TokM α} {f : α → TokM β} (h : Registers m) (h' : ∀ a, Registers (f a)) :
    Registers (m >>= f) := by
  intro s b s'' hb hs
  obtain ⟨a, s', h1, h2⟩ := TokM.bind_ok.mp hb
  exact h' a s' b s'' h2 (h s a s' h1 hs)

theorem Registers.panic {α : Type} : Registers (TokM.panic : TokM α) := by
  intro s a s' h
  cases h

theorem Registers.running {α : Type} : Registers (TokM.running : TokM α) := by
  intro s a s' h
  cases h

theorem Registers.lift {α : Type} (r : Res α) : Registers (TokM.lift r) := by
  intro s a s' h hs
  cases r with
  | ok x =>
    cases h
    exact hs
  | err => cases h
  | panic => cases h
  | fatal => cases h

theorem Registers.ite {α : Type} {c : Prop} [Decidable c] {m m' : TokM α} (h : Registers m) (h' : Registers m') :
    Registers (if c then m else m') := by
  split
  · exact h
  · exact h'

theorem Registers.getToken (t : Str) : Registers (getToken t) := by
  intro s a s' h hs
  cases h
  exact hs

theorem Registers.setRawToken (key : Str) {token : Token} (hp : pictureFile token = none) :
    Registers (setRawToken key token) := by
  intro s a s' h hs
  cases h
  intro key' token' filename hm hf
  rcases List.mem_cons.mp hm with heq | hm
  · cases heq
    simp [hp] at hf
  · exact hs key' token' filename hm hf

/-- A token whose content is parsed after the key has been created. -/
theorem Registers.reserved {α β : Type} {t : Str} {m : Str → TokM α} {token : Str → α → Token} {k : Str → α → TokM β}
    (h : ∀ key, Registers (m key)) (h' : ∀ key a, Registers (k key a))
    (hp : ∀ key a, pictureFile (token key a) = none := by intros; rfl) :
    Registers (Model.getToken t >>= fun key => m key >>= fun a => Model.setRawToken key (token key a) >>= fun _ => k key a) :=
  .bind (.getToken _) fun _ => .bind (h _) fun _ => .bind (.setRawToken _ (hp _ _)) fun _ => h' _ _

/-- A token with known content. -/
theorem Registers.token {β : Type} {t : Str} {token : Str → Token} {k : Str → TokM β} (h : ∀ key, Registers (k key))
    (hp : ∀ key, pictureFile (token key) = none := by intros; rfl) :
    Registers (Model.getToken t >>= fun key => Model.setRawToken key (token key) >>= fun _ => k key) :=
  .bind (.getToken _) fun _ => .bind (.setRawToken _ (hp _)) fun _ => h _

theorem Registers.addImage (name : Str) : Registers (addImage name) := by
  intro s a s' h hs
  cases h
  intro key token filename hm hf
  obtain ⟨⟨pre, h1, h2⟩, h3⟩ := hs key token filename hm hf
  exact ⟨⟨pre, h1, List.mem_append_left _ h2⟩, h3⟩

theorem Registers.map {α β : Type} {o : Option α} {f : α → β} :
    Registers (fun s => o.map fun c => Res.ok (f c, s) : TokM β) := by
  intro s a s' h hs
  cases o with
  | none => cases h
  | some c =>
    cases h
    exact hs

/-- A sequence whose first part has only certain results. -/
theorem Registers.bindPost {α β : Type} {m : TokM α} {f : α → TokM β} {Q : α → Prop} (h : Registers m)
    (hq : ∀ s a s', m s = some (.ok (a, s')) → Q a) (h' : ∀ a, Q a → Registers (f a)) : Registers (m >>= f) := by
  intro s b s'' hb hs
  obtain ⟨a, s', h1, h2⟩ := TokM.bind_ok.mp hb
  exact h' a (hq _ _ _ h1) s' b s'' h2 (h s a s' h1 hs)

/-! ### The parsing functions -/

theorem registers_parseBoldAndItalic (fuel : Nat) (content : Str) : Registers (parseBoldAndItalic fuel content) :=
  Registers.map (f := fun c => c)

theorem registers_nowikiLoop (fuel : Nat) : ∀ content i, Registers (nowikiLoop fuel content i) := by
  induction fuel with
  | zero => intro _ _; exact Registers.running
  | succ fuel ih =>
    intro content i
    unfold nowikiLoop
    refine Registers.ite (Registers.ite ?_ (ih _ _)) (Registers.pure _)
    split
    · exact Registers.panic
    · exact Registers.token fun key => ih _ _

theorem registers_headingLines {rec : Rec} (h : ∀ c, Registers (rec c)) (depth : Nat) (lines : List Str) :
    Registers (headingLines rec depth lines) := by
  induction lines with
  | nil => exact Registers.pure _
  | cons line rest ih =>
    refine Registers.bind ?_ fun _ => Registers.bind ih fun _ => Registers.pure _
    exact Registers.ite (Registers.reserved (fun _ => h _) (fun _ _ => Registers.pure _)) (Registers.pure _)

theorem registers_headingDepths {rec : Rec} (h : ∀ c, Registers (rec c)) (depth : Nat) :
    ∀ lines, Registers (headingDepths rec depth lines) := by
  induction depth with
  | zero => intro _; exact Registers.pure _
  | succ d ih => intro lines; exact Registers.bind (registers_headingLines h _ _) fun _ => ih _

theorem registers_parseHeadings {rec : Rec} (h : ∀ c, Registers (rec c)) (content : Str) :
    Registers (parseHeadings rec content) :=
  Registers.bind (registers_headingDepths h _ _) fun _ => Registers.pure _

theorem registers_parseMath (content : Str) : Registers (parseMath content) := by
  unfold parseMath
  generalize findMath content 0 = l
  induction l generalizing content with
  | nil => exact Registers.pure _
  | cons m l ih =>
    obtain ⟨whole, inner⟩ := m
    unfold mathLoop
    exact Registers.token fun _ => ih _

theorem registers_linkToken {rec : Rec} (h : ∀ c, Registers (rec c)) (x : LinkSyntax) (target text : Str) :
    Registers (linkToken rec x target text) := by
  unfold linkToken
  refine Registers.ite ?_ (Registers.ite ?_ (Registers.ite ?_ (Registers.pure _)))
  all_goals exact Registers.bind (h _) fun _ => Registers.pure _

theorem linkToken_noPicture (rec : Rec) (x : LinkSyntax) (target text : Str) (s s' : TokState) (p : Str × Token)
    (h : linkToken rec x target text s = some (.ok (some p, s'))) : pictureFile p.2 = none := by
  unfold linkToken at h
  split at h
  · obtain ⟨t, s₁, _, h2⟩ := TokM.bind_ok.mp h
    cases h2
    rfl
  split at h
  · obtain ⟨t, s₁, _, h2⟩ := TokM.bind_ok.mp h
    cases h2
    rfl
  split at h
  · obtain ⟨t, s₁, _, h2⟩ := TokM.bind_ok.mp h
    cases h2
    rfl
  · cases h

theorem registers_linkSegment (env : ParserEnv) {rec : Rec} (h : ∀ c, Registers (rec c)) (x : LinkSyntax) (item : Str) :
    Registers (linkSegment env rec x item) := by
  unfold linkSegment
  refine Registers.ite (Registers.pure _) (Registers.bind (Registers.lift _) fun o => ?_)
  cases o with
  | none => exact Registers.pure _
  | some text =>
    refine Registers.bind (Registers.bindPost (Q := fun o => ∀ p, o = some p → pictureFile p.2 = none)
      (registers_linkToken h _ _ _) ?_ fun o ho => ?_) fun _ => Registers.pure _
    · rintro s o s' hl p rfl
      exact linkToken_noPicture _ _ _ _ _ _ _ hl
    · cases o with
      | none => exact Registers.pure _
      | some p => exact Registers.token (fun _ => Registers.pure _) fun _ => ho _ rfl

theorem registers_parseLink (env : ParserEnv) {rec : Rec} (h : ∀ c, Registers (rec c)) (x : LinkSyntax) (content : Str) :
    Registers (parseLink env rec x content) := by
  unfold parseLink
  have key : ∀ l, Registers (linkSegments env rec x l) := by
    intro l
    induction l with
    | nil => exact Registers.pure _
    | cons a l ih => exact Registers.bind (registers_linkSegment env h _ _) fun _ => Registers.bind ih fun _ => Registers.pure _
  exact Registers.bind (key _) fun _ => Registers.pure _

theorem registers_refDefinitions (contents : List ((Str × Nat) × Str)) (group : Str) (n k : Nat) :
    Registers (refDefinitions contents group n k) := by
  induction k with
  | zero => exact Registers.pure _
  | succ k ih =>
    unfold refDefinitions
    dsimp only
    split
    · exact ih
    · exact Registers.token fun _ => Registers.bind ih fun _ => Registers.pure _

theorem registers_refUsage (within : Bool) (number : Nat) : Registers (refUsage within number) := by
  unfold refUsage
  exact Registers.ite (Registers.pure _) (Registers.token fun _ => Registers.pure _)

theorem registers_refTag {rec : Rec} (h : ∀ c, Registers (rec c)) (content : Str) (i startEnd : Nat) (st : RefState) :
    Registers (refTag rec content i startEnd st) := by
  unfold refTag
  refine Registers.ite ?_ (Registers.ite ?_ ?_)
  · refine Registers.bind (Registers.lift _) fun _ => Registers.bind ?_ fun _ => Registers.pure _
    unfold refEndPlaceholder
    exact Registers.bind (registers_refDefinitions _ _ _ _) fun _ => Registers.pure _
  · exact Registers.bind (Registers.lift _) fun _ => Registers.pure _
  · refine Registers.bind (Registers.lift _) fun _ => Registers.bind (Registers.lift _) fun _ => Registers.ite ?_ ?_
    · unfold namedReferenceUsage
      exact Registers.ite (Registers.bind (registers_refUsage _ _) fun _ => Registers.pure _) (Registers.pure _)
    · split
      · exact Registers.panic
      · unfold referenceDefinition
        exact Registers.bind (h _) fun _ => Registers.bind (registers_refUsage _ _) fun _ => Registers.pure _

theorem registers_refLoop {rec : Rec} (h : ∀ c, Registers (rec c)) (fuel : Nat) :
    ∀ content i st, Registers (refLoop rec fuel content i st) := by
  induction fuel with
  | zero => intro _ _ _; exact Registers.running
  | succ fuel ih =>
    intro content i st
    unfold refLoop
    refine Registers.ite (Registers.ite ?_ (ih _ _ _)) (Registers.pure _)
    split
    · exact Registers.panic
    · exact Registers.bind (registers_refTag h _ _ _ _) fun _ => ih _ _ _

theorem registers_escapeImages (env : ParserEnv) (content : Str) : Registers (escapeImages env content) := by
  unfold escapeImages
  dsimp only
  refine Registers.ite (Registers.pure _) (Registers.ite Registers.panic ?_)
  exact Registers.bind (Registers.addImage _) fun _ => Registers.pure _

theorem registers_galleryImage (env : ParserEnv) (line : Str) : Registers (galleryImage env line) :=
  Registers.bind (registers_escapeImages _ _) fun _ => Registers.pure _

theorem registers_galleryLines (env : ParserEnv) (lines : List Str) :
    ∀ within, Registers (galleryLines env lines within) := by
  induction lines with
  | nil => intro _; exact Registers.pure _
  | cons line rest ih =>
    intro within
    unfold galleryLines
    dsimp only
    refine Registers.ite (Registers.ite (ih _) (Registers.bind (ih _) fun _ => Registers.pure _)) ?_
    refine Registers.ite (Registers.ite (ih _) (Registers.bind (registers_galleryImage _ _) fun _ => Registers.bind (ih _) fun _ => Registers.pure _)) (Registers.bind (ih _) fun _ => Registers.pure _)

theorem registers_imageMapLines (env : ParserEnv) (n : Nat) :
    ∀ lines : List Str, lines.length ≤ n → ∀ within, Registers (imageMapLines env lines within) := by
  induction n with
  | zero =>
    intro lines hl within
    have : lines = [] := List.length_eq_zero_iff.mp (by omega)
    subst this
    exact Registers.pure _
  | succ n ih =>
    intro lines hl within
    cases lines with
    | nil => exact Registers.pure _
    | cons line rest =>
      have hr : rest.length ≤ n := by simpa using hl
      unfold imageMapLines
      refine Registers.ite (ih _ hr _) (Registers.ite (ih _ hr _) ?_)
      split
      · exact Registers.bind (ih _ hr _) fun _ => Registers.pure _
      · refine Registers.ite ?_ ?_
        · cases rest with
          | nil => exact Registers.panic
          | cons next rest =>
            exact Registers.bind (registers_escapeImages _ _) fun _ =>
              Registers.bind (ih _ (by simp at hr; omega) _) fun _ => Registers.pure _
        · exact Registers.bind (registers_escapeImages _ _) fun _ => Registers.bind (ih _ hr _) fun _ => Registers.pure _

theorem registers_imageOptions {rec : Rec} (h : ∀ c, Registers (rec c)) (l : List Str) :
    ∀ o, Registers (imageOptions rec l o) := by
  induction l with
  | nil => intro _; exact Registers.pure _
  | cons a l ih =>
    intro o
    unfold imageOptions
    exact Registers.ite (ih _) (Registers.ite (ih _) (Registers.ite (Registers.bind (h _) fun _ => ih _) (ih _)))

theorem mem_cut {c : Byte} {s a b : Str} (h : cut [c] s = some (a, b)) : c ∉ a := by
  induction s generalizing a with
  | nil => simp [cut] at h
  | cons d t ih =>
    unfold cut at h
    split at h
    · cases h
      simp
    · rename_i hp
      obtain ⟨⟨a', b'⟩, h1, h2⟩ := Option.map_eq_some_iff.mp h
      cases h2
      have : c ≠ d := by
        rintro rfl
        simp at hp
      simp [this, ih h1]

theorem split_cons_tail (s : Str) (c : Byte) : ∃ first more, split s [c] = first :: more ∧ c ∉ first ∧ ∀ p ∈ more, c ∉ p := by
  cases h : split s [c] with
  | nil => exact absurd h (split_ne_nil s (by simp))
  | cons first more =>
    refine ⟨first, more, rfl, ?_, ?_⟩
    · exact not_mem_of_mem_split_singleton (s := s) (by simp [h])
    · intro p hp
      exact not_mem_of_mem_split_singleton (s := s) (by simp [h, hp])

/-- `escapeImages` behind the separation of prefix and name. -/
def escapeNamed (env : ParserEnv) (pre name : Str) (more : List Str) : TokM Str :=
  if env.lower (trimPrefix (ext name) b!".") ∈ env.config.list .ignoredMediaTypes ∧
      ¬ (env.lower (trimPrefix (ext name) b!".") = b!"pdf" ∧ env.config.str .commandTemplatePdfToPng ≠ []) ∧
      ¬ (env.lower (trimPrefix (ext name) b!".") = b!"svg" ∧ env.config.str .commandTemplateSvgToPng ≠ []) then pure []
  else if replaceAll (replaceAll name b!" " b!"_") b!"%20" b!"_" = [] then TokM.panic
  else do
    addImage (pre ++ b!":" ++ env.upperFirst (replaceAll (replaceAll name b!" " b!"_") b!"%20" b!"_"))
    pure (join b!"|" ((pre ++ b!":" ++ env.upperFirst (replaceAll (replaceAll name b!" " b!"_") b!"%20" b!"_")) :: more))

theorem escapeImages_eq (env : ParserEnv) (content first : Str) (more : List Str)
    (h : split content b!"|" = first :: more) : escapeImages env content = match cut b!":" first with
      | none => escapeNamed env b!"File" (trimSpace first) more
      | some (p, rest) => escapeNamed env p (trimSpace rest) more := by
  unfold escapeImages
  rw [h]
  simp only [List.headD_cons, List.tail_cons]
  obtain hc | ⟨q, hc⟩ : cut b!":" first = none ∨ ∃ q, cut b!":" first = some q := by
    cases cut b!":" first with
    | none => exact .inl rfl
    | some q => exact .inr ⟨q, rfl⟩
  · simp only [hc]
    rfl
  · simp only [hc]
    rfl

theorem escapeNamed_result (env : ParserEnv) (hu : CreatesNoSeparators env.upperFirst) (pre name : Str) (more : List Str)
    (hpre : (0x3A : Byte) ∉ pre) (hbar : (0x7C : Byte) ∉ pre) (hname : (0x7C : Byte) ∉ name) (hm : ∀ p ∈ more, (0x7C : Byte) ∉ p)
    (result : Str) (s s' : TokState) (h : escapeNamed env pre name more s = some (.ok (result, s'))) : result = [] ∨
      ∃ pre filename more, (0x3A : Byte) ∉ pre ∧ (0x20 : Byte) ∉ filename ∧
        pre ++ b!":" ++ filename ∈ s'.images ∧ split result b!"|" = (pre ++ b!":" ++ filename) :: more := by
  unfold escapeNamed at h
  split at h
  · cases h
    exact .inl rfl
  split at h
  · cases h
  obtain ⟨_, s₁, e1, e2⟩ := TokM.bind_ok.mp h
  cases e1
  cases e2
  right
  have hsp : (0x20 : Byte) ∉ replaceAll (replaceAll name b!" " b!"_") b!"%20" b!"_" := by
    refine not_mem_replaceAll (by simp) ?_ (by decide)
    rw [replaceAll_singleton]
    simp only [List.mem_flatMap, not_exists, not_and]
    intro x _
    split
    · decide
    · rename_i hx
      simpa using fun h => hx h.symm
  have hbar' : (0x7C : Byte) ∉ replaceAll (replaceAll name b!" " b!"_") b!"%20" b!"_" :=
    not_mem_replaceAll (by simp) (not_mem_replaceAll (by simp) hname (by decide)) (by decide)
  refine ⟨pre, env.upperFirst (replaceAll (replaceAll name b!" " b!"_") b!"%20" b!"_"), more, hpre,
    hu _ _ (by decide) hsp, by simp, ?_⟩
  refine split_join_singleton (by simp) ?_
  intro p hpm
  rcases List.mem_cons.mp hpm with rfl | hpm
  · have := hu _ 0x7C (by decide) hbar'
    simp [hbar, this]
  · exact hm p hpm

/-- What `escapeImages` returns names the image that it has added. -/
theorem escapeImages_result (env : ParserEnv) (hu : CreatesNoSeparators env.upperFirst) (content result : Str) (s s' : TokState)
    (h : escapeImages env content s = some (.ok (result, s'))) : result = [] ∨
      ∃ pre filename more, (0x3A : Byte) ∉ pre ∧ (0x20 : Byte) ∉ filename ∧
        pre ++ b!":" ++ filename ∈ s'.images ∧ split result b!"|" = (pre ++ b!":" ++ filename) :: more := by
  obtain ⟨first, more, h1, h2, h3⟩ := split_cons_tail content 0x7C
  rw [escapeImages_eq env content first more h1] at h
  cases hc : cut b!":" first with
  | none =>
    rw [hc] at h
    exact escapeNamed_result env hu _ _ _ (by decide) (by decide) (fun hm => h2 (mem_of_mem_trimSpace hm)) h3 _ _ _ h
  | some q =>
    obtain ⟨a, b⟩ := q
    rw [hc] at h
    have he := cut_eq_some hc
    subst he
    refine escapeNamed_result env hu _ _ _ (mem_cut hc) (fun hm => h2 (by simp [hm])) (fun hm => h2 ?_) h3 _ _ _ h
    have := mem_of_mem_trimSpace hm
    simp [this]

theorem registers_imageToken (env : ParserEnv) {rec : Rec} (h : ∀ c, Registers (rec c)) (hg : ∀ c, Growing (rec c))
    (content pre filename : Str) (more : List Str) (hpre : (0x3A : Byte) ∉ pre) (hf : (0x20 : Byte) ∉ filename)
    (hc : split content b!"|" = (pre ++ b!":" ++ filename) :: more) (s s' : TokState) (key : Str)
    (hm : pre ++ b!":" ++ filename ∈ s.images) (hs : PicturesRequested s)
    (hr : imageToken env rec content s = some (.ok (key, s'))) : PicturesRequested s' := by
  unfold imageToken at hr
  rw [hc] at hr
  simp only [List.headD_cons, List.append_assoc, List.cons_append, List.nil_append, cut_single _ hpre] at hr
  obtain ⟨o, s₁, h1, h2⟩ := TokM.bind_ok.mp hr
  obtain ⟨key', s₂, h3, h4⟩ := TokM.bind_ok.mp h2
  obtain ⟨_, s₃, h5, h6⟩ := TokM.bind_ok.mp h4
  cases h3
  cases h5
  cases h6
  have hs₁ := registers_imageOptions h _ _ _ _ _ h1 hs
  obtain ⟨_, _, new, hi⟩ := growing_imageOptions hg _ _ _ _ _ h1
  intro k t f hmem hp
  rcases List.mem_cons.mp hmem with heq | hmem
  · cases heq
    have : f = filename := by
      split at hp
      · exact (Option.some.inj hp).symm
      · exact (Option.some.inj hp).symm
    subst this
    refine ⟨⟨pre, hpre, ?_⟩, hf⟩
    simp only [hi]
    exact List.mem_append_left _ hm
  · exact hs₁ k t f hmem hp

theorem registers_image (env : ParserEnv) (hu : CreatesNoSeparators env.upperFirst) {rec : Rec}
    (h : ∀ c, Registers (rec c)) (hg : ∀ c, Growing (rec c)) {β : Type} (content : Str) {k : Str → TokM β}
    (hk : ∀ key, Registers (k key)) :
    Registers (escapeImages env content >>= fun image => imageKey env rec image >>= k) := by
  intro s b s' hr hs
  obtain ⟨image, s₁, h1, h2⟩ := TokM.bind_ok.mp hr
  obtain ⟨key, s₂, h3, h4⟩ := TokM.bind_ok.mp h2
  refine hk _ _ _ _ h4 ?_
  have hs₁ := registers_escapeImages env content _ _ _ h1 hs
  unfold imageKey at h3
  split at h3
  · cases h3
    exact hs₁
  · rename_i hn
    rcases escapeImages_result env hu _ _ _ _ h1 with rfl | ⟨pre, filename, more, e1, e2, e3, e4⟩
    · exact absurd (Or.inl rfl) hn
    · exact registers_imageToken env h hg _ _ _ _ e1 e2 e4 _ _ _ e3 hs₁ h3

theorem registers_imageLoop (env : ParserEnv) (hu : CreatesNoSeparators env.upperFirst) {rec : Rec}
    (h : ∀ c, Registers (rec c)) (hg : ∀ c, Growing (rec c)) (fuel : Nat) :
    ∀ content, Registers (imageLoop env rec fuel content) := by
  induction fuel with
  | zero => intro _; exact Registers.running
  | succ fuel ih =>
    intro content
    unfold imageLoop
    split
    · exact Registers.pure _
    · split
      · exact Registers.panic
      · refine Registers.bind (h _) fun _ => registers_image env hu h hg _ fun _ => ?_
        exact Registers.ite (ih _) Registers.panic

theorem registers_lineItems {rec : Rec} (h : ∀ c, Registers (rec c)) (c : Byte) (text : Str) :
    Registers (lineItems rec c text) := by
  unfold lineItems
  refine Registers.ite ?_ (Registers.ite (Registers.bind (h _) fun _ => Registers.pure _) (Registers.bind (h _) fun _ => Registers.pure _))
  split
  · exact Registers.bind (h _) fun _ => Registers.pure _
  · exact Registers.bind (h _) fun _ => Registers.bind (h _) fun _ => Registers.pure _

theorem registers_lists {rec : Rec} (h : ∀ c, Registers (rec c)) (fuel : Nat) :
    (∀ lines p, Registers (tokenizeList rec fuel lines p)) ∧
    (∀ p lines items, Registers (listItems rec fuel p lines items)) := by
  induction fuel with
  | zero =>
    refine ⟨fun _ _ => ?_, fun _ _ _ => ?_⟩
    · unfold tokenizeList; exact Registers.running
    · unfold listItems; exact Registers.running
  | succ fuel ih =>
    refine ⟨fun lines p => ?_, fun p lines items => ?_⟩
    · unfold tokenizeList
      exact Registers.bind (ih.2 _ _ _) fun _ => Registers.token fun _ => Registers.pure _
    · cases lines with
      | nil => unfold listItems; exact Registers.pure _
      | cons l rest =>
        cases l with
        | nil => unfold listItems; exact ih.2 _ _ _
        | cons c text =>
          unfold listItems
          cases text with
          | nil => exact Registers.bind (registers_lineItems h _ _) fun _ => ih.2 _ _ _
          | cons d text =>
            refine Registers.ite ?_ ?_
            · exact Registers.bind (ih.1 _ _) fun _ => ih.2 _ _ _
            · exact Registers.bind (registers_lineItems h _ _) fun _ => ih.2 _ _ _

theorem registers_parseListLines {rec : Rec} (h : ∀ c, Registers (rec c)) (fuel : Nat) :
    ∀ lines, Registers (parseListLines rec fuel lines) := by
  induction fuel with
  | zero => intro _; exact Registers.running
  | succ fuel ih =>
    intro lines
    cases lines with
    | nil => exact Registers.pure _
    | cons line rest =>
      unfold parseListLines
      split
      · refine Registers.ite (Registers.bind ((registers_lists h fuel).1 _ _) fun _ => Registers.bind (ih _) fun _ => Registers.pure _) ?_
        exact Registers.bind (ih _) fun _ => Registers.pure _
      · exact Registers.bind (ih _) fun _ => Registers.pure _

theorem registers_tableEntry {rec : Rec} (h : ∀ c, Registers (rec c)) (content : Str) : Registers (tableEntry rec content) := by
  unfold tableEntry
  split
  · exact Registers.bind (h _) fun _ => Registers.pure _
  · exact Registers.bind (h _) fun _ => Registers.pure _

theorem registers_tableRow {rec : Rec} (h : ∀ c, Registers (rec c)) (fuel : Nat) :
    ∀ lines, Registers (tableRow rec fuel lines) := by
  induction fuel with
  | zero => intro _; exact Registers.running
  | succ fuel ih =>
    intro lines
    cases lines with
    | nil => exact Registers.pure _
    | cons line rest =>
      unfold tableRow
      refine Registers.ite (Registers.pure _) (Registers.bind (Registers.lift _) fun _ => ?_)
      exact Registers.bind (registers_tableEntry h _) fun _ => Registers.bind (ih _) fun _ => Registers.pure _

theorem registers_tableRows {rec : Rec} (h : ∀ c, Registers (rec c)) (fuel : Nat) :
    ∀ lines caption, Registers (tableRows rec fuel lines caption) := by
  induction fuel with
  | zero => intro _ _; exact Registers.running
  | succ fuel ih =>
    intro lines caption
    cases lines with
    | nil => exact Registers.pure _
    | cons line rest =>
      have row : ∀ l, Registers (tableRow rec fuel l >>= fun p => tableRows rec fuel p.2 caption >>= fun q =>
          (pure (p.1 :: q.1, q.2) : TokM _)) :=
        fun l => Registers.bind (registers_tableRow h _ _) fun _ => Registers.bind (ih _ _) fun _ => Registers.pure _
      unfold tableRows
      dsimp only
      refine Registers.ite ?_ (Registers.ite (row _) (Registers.ite ?_ (Registers.ite (Registers.pure _) (Registers.ite (row _) (ih _ _)))))
      · unfold tableCaption
        refine Registers.bind (Registers.bind (Registers.lift _) fun _ => ?_) fun _ => ih _ _
        exact Registers.bind (registers_tableEntry h _) fun _ => Registers.pure _
      · cases rest with
        | nil => exact Registers.panic
        | cons next rest => exact Registers.ite (row _) (ih _ _)

theorem registers_tokenizeTable {rec : Rec} (h : ∀ c, Registers (rec c)) (fuel : Nat) (content : Str) :
    Registers (tokenizeTable rec fuel content) :=
  Registers.bind (registers_tableRows h _ _ _) fun _ => Registers.pure _

theorem registers_tables {rec : Rec} (h : ∀ c, Registers (rec c)) (fuel : Nat) :
    (∀ line rest, Registers (tokenizeTables rec fuel line rest)) ∧ (∀ lines, Registers (tableBody rec fuel lines)) := by
  induction fuel with
  | zero =>
    refine ⟨fun _ _ => ?_, fun _ => ?_⟩
    · unfold tokenizeTables; exact Registers.running
    · unfold tableBody; exact Registers.running
  | succ fuel ih =>
    refine ⟨fun line rest => ?_, fun lines => ?_⟩
    · unfold tokenizeTables
      refine Registers.bind (ih.2 _) fun _ => Registers.bindPost (Q := fun t => pictureFile t = none)
        (registers_tokenizeTable h _ _) ?_ fun _ ht => Registers.token (fun _ => Registers.pure _) fun _ => ht
      intro s t s' ht
      obtain ⟨_, _, _, h2⟩ := TokM.bind_ok.mp ht
      cases h2
      rfl
    · cases lines with
      | nil => unfold tableBody; exact Registers.pure _
      | cons line rest =>
        unfold tableBody
        dsimp only
        refine Registers.ite ?_ (Registers.ite (Registers.pure _) ?_)
        · exact Registers.bind (ih.1 _ _) fun _ => Registers.bind (ih.2 _) fun _ => Registers.pure _
        · exact Registers.bind (ih.2 _) fun _ => Registers.pure _

theorem registers_tableLoop {rec : Rec} (h : ∀ c, Registers (rec c)) (fuel : Nat) :
    ∀ lines, Registers (tableLoop rec fuel lines) := by
  induction fuel with
  | zero => intro _; exact Registers.running
  | succ fuel ih =>
    intro lines
    cases lines with
    | nil => exact Registers.pure _
    | cons line rest =>
      unfold tableLoop
      split
      · exact Registers.bind ((registers_tables h fuel).1 _ _) fun _ => Registers.bind (ih _) fun _ => Registers.pure _
      · exact Registers.bind (ih _) fun _ => Registers.pure _

theorem registers_tokenizePass (env : ParserEnv) (hu : CreatesNoSeparators env.upperFirst) {rec : Rec}
    (h : ∀ c, Registers (rec c)) (hg : ∀ c, Growing (rec c)) (fuel : Nat) (content : Str) :
    Registers (tokenizePass env rec fuel content) := by
  unfold tokenizePass
  refine Registers.bind (registers_nowikiLoop _ _ _) fun _ => ?_
  refine Registers.bind (registers_parseBoldAndItalic _ _) fun _ => ?_
  refine Registers.bind (registers_parseHeadings h _) fun _ => ?_
  refine Registers.bind (registers_refLoop h _ _ _ _) fun _ => ?_
  refine Registers.bind (registers_parseLink env h _ _) fun _ => ?_
  refine Registers.bind (Registers.bind (registers_galleryLines env _ _) fun _ => Registers.pure _) fun _ => ?_
  refine Registers.bind (Registers.bind (registers_imageMapLines env _ _ (Nat.le_refl _) _) fun _ => Registers.pure _) fun _ => ?_
  refine Registers.bind (registers_imageLoop env hu h hg _ _) fun _ => ?_
  refine Registers.bind (registers_parseLink env h _ _) fun _ => ?_
  refine Registers.bind (registers_parseMath _) fun _ => ?_
  refine Registers.bind (Registers.bind (registers_parseListLines h _ _) fun _ => Registers.pure _) fun _ => ?_
  refine Registers.bind (Registers.bind (registers_tableLoop h _ _) fun _ => Registers.pure _) fun _ => ?_
  exact Registers.pure _

theorem registers_tokenizeContent (env : ParserEnv) (hu : CreatesNoSeparators env.upperFirst) (fuel : Nat) :
    ∀ content, Registers (tokenizeContent env fuel content) := by
  induction fuel with
  | zero => intro _; exact Registers.running
  | succ fuel ih =>
    intro content
    unfold tokenizeContent
    refine Registers.bind (registers_tokenizePass env hu ih (growing_tokenizeContent env fuel) _ _) fun _ => ?_
    exact Registers.ite (Registers.pure _) (ih _)

end Verif.Model
