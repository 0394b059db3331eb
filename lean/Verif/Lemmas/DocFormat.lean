import Verif.Lemmas.DocHeadings
import Verif.Lemmas.Emphasis

/-!
# Bold and italic text of an article
-/

namespace Verif.Model
open Verif.Go Verif.Spec Verif.Lemmas Verif.Props
open scoped List

/-! ### Lines as atoms -/

def openMarkers : Emphasis → List Marker
  | .italic => [.italicOpen]
  | .bold => [.boldOpen]
  | .both => [.italicOpen, .boldOpen]

def closeMarkers : Emphasis → List Marker
  | .italic => [.italicClose]
  | .bold => [.boldClose]
  | .both => [.boldClose, .italicClose]

def capPartAtom : CaptionPart → CapAtom
  | .text t => .text t
  | .link l => .link l

def capRunAtoms (r : CaptionRun) : List CapAtom :=
  match r.style with
  | none => r.parts.map capPartAtom
  | some e => (openMarkers e).map .mark ++ r.parts.map capPartAtom ++ (closeMarkers e).map .mark

def capAtoms (c : List CaptionRun) : List CapAtom := c.flatMap capRunAtoms

def notePartAtom : NotePart → Atom
  | .text t => .text t
  | .link l => .link l
  | .web url label => .web url label

def openMarks (e : Emphasis) : List Atom := (openMarkers e).map .mark
def closeMarks (e : Emphasis) : List Atom := (closeMarkers e).map .mark

def noteRunAtoms (r : NoteRun) : List Atom :=
  match r.style with
  | none => r.parts.map notePartAtom
  | some e => openMarks e ++ r.parts.map notePartAtom ++ closeMarks e

def noteAtoms (c : NoteText) : List Atom := c.flatMap noteRunAtoms

def refText (c : NoteText) : RefText := ⟨noteSource c, srcs (noteAtoms c), noteHtml c⟩

def inlineAtom (env : ParserEnv) : Inline → Atom
  | .text t => .text t
  | .link l => .link l
  | .web url label => .web url label
  | .image p => .image ⟨p.space, p.name, p.options, none⟩ (p.written.file env) (p.caption.map capAtoms)
  | .math attributes formula => .math attributes formula
  | .ref r => .ref r.number r.attrs r.space (kindMap refText r.kind)

def runAtoms (env : ParserEnv) (r : Run) : List Atom :=
  match r.style with
  | none => r.parts.map (inlineAtom env)
  | some e => openMarks e ++ r.parts.map (inlineAtom env) ++ closeMarks e

def richAtoms (env : ParserEnv) (l : RichLine) : List Atom := l.flatMap (runAtoms env)

/-- The HTML of images and formulas. -/
abbrev picHtml (env : ParserEnv) (html : HtmlEnv) : ArticlePictures := ⟨ArticleImage.html env (imageSource html), formulaPicture html⟩

/-- A line before the tokenizer replaces anything but the apostrophes. -/
def leafOf (env : ParserEnv) (html : HtmlEnv) (l : RichLine) : Leaf := (richAtoms env l, lineHtml (picHtml env html) l)

theorem capAtoms_line (env : ParserEnv) (c : List CaptionRun) : (capAtoms c).map CapAtom.atom = richAtoms env (c.map CaptionRun.run) := by
  induction c with
  | nil => rfl
  | cons r c ih =>
    show (capRunAtoms r ++ capAtoms c).map CapAtom.atom = runAtoms env r.run ++ richAtoms env (c.map CaptionRun.run)
    rw [List.map_append, ih]
    congr 1
    have hp : (r.parts.map capPartAtom).map CapAtom.atom = r.run.parts.map (inlineAtom env) := by
      simp only [CaptionRun.run, List.map_map]
      refine List.map_congr_left fun p _ => ?_
      cases p <;> rfl
    have hm : ∀ ms : List Marker, (ms.map CapAtom.mark).map CapAtom.atom = ms.map Atom.mark := fun ms => by
      rw [List.map_map]
      rfl
    unfold capRunAtoms runAtoms
    show _ = match r.style with | none => _ | some e => _
    cases r.style with
    | none => exact hp
    | some e => simp only [List.map_append, hp, hm, openMarks, closeMarks]

theorem captionSource_line (c : List CaptionRun) : captionSource c = lineSource (c.map CaptionRun.run) := by
  induction c with
  | nil => rfl
  | cons r c ih =>
    show r.source ++ captionSource c = r.run.source ++ lineSource (c.map CaptionRun.run)
    rw [ih]
    congr 1
    have hp : r.parts.flatMap CaptionPart.source = r.run.parts.flatMap Inline.source := by
      simp only [CaptionRun.run, List.flatMap_map]
      congr 1
      funext p
      cases p <;> rfl
    unfold CaptionRun.source Run.source
    rw [hp]
    rfl

theorem captionHtml_line (pic : ArticlePictures) (c : List CaptionRun) : captionHtml c = lineHtml pic (c.map CaptionRun.run) := by
  induction c with
  | nil => rfl
  | cons r c ih =>
    show r.html ++ captionHtml c = r.run.html pic ++ lineHtml pic (c.map CaptionRun.run)
    rw [ih]
    congr 1
    have hp : r.parts.flatMap CaptionPart.html = r.run.parts.flatMap (Inline.html pic) := by
      simp only [CaptionRun.run, List.flatMap_map]
      congr 1
      funext p
      cases p <;> rfl
    unfold CaptionRun.html Run.html
    rw [hp]
    rfl

theorem noteAtoms_line (env : ParserEnv) (c : NoteText) : noteAtoms c = richAtoms env (c.map NoteRun.run) := by
  induction c with
  | nil => rfl
  | cons r c ih =>
    show noteRunAtoms r ++ noteAtoms c = runAtoms env r.run ++ richAtoms env (c.map NoteRun.run)
    rw [ih]
    congr 1
    have hp : r.parts.map notePartAtom = r.run.parts.map (inlineAtom env) := by
      simp only [NoteRun.run, List.map_map]
      refine List.map_congr_left fun p _ => ?_
      cases p <;> rfl
    unfold noteRunAtoms runAtoms
    show _ = match r.style with | none => _ | some e => _
    rw [hp]

theorem noteSource_line (c : NoteText) : noteSource c = lineSource (c.map NoteRun.run) := by
  induction c with
  | nil => rfl
  | cons r c ih =>
    show r.source ++ noteSource c = r.run.source ++ lineSource (c.map NoteRun.run)
    rw [ih]
    congr 1
    have hp : r.parts.flatMap NotePart.source = r.run.parts.flatMap Inline.source := by
      simp only [NoteRun.run, List.flatMap_map]
      congr 1
      funext p
      cases p <;> rfl
    unfold NoteRun.source Run.source
    rw [hp]
    rfl

theorem noteHtml_line (pic : ArticlePictures) (c : NoteText) : noteHtml c = lineHtml pic (c.map NoteRun.run) := by
  induction c with
  | nil => rfl
  | cons r c ih =>
    show r.html ++ noteHtml c = r.run.html pic ++ lineHtml pic (c.map NoteRun.run)
    rw [ih]
    congr 1
    have hp : r.parts.flatMap NotePart.html = r.run.parts.flatMap (Inline.html pic) := by
      simp only [NoteRun.run, List.flatMap_map]
      congr 1
      funext p
      cases p <;> rfl
    unfold NoteRun.html Run.html
    rw [hp]
    rfl

theorem mem_capAtoms {c : List CaptionRun} {a : CapAtom} (h : a ∈ capAtoms c) :
    (∃ r ∈ c, ∃ p ∈ r.parts, a = capPartAtom p) ∨ ∃ m, a = .mark m := by
  obtain ⟨r, hr, h⟩ := List.mem_flatMap.mp h
  have hp : a ∈ r.parts.map capPartAtom → ∃ r ∈ c, ∃ p ∈ r.parts, a = capPartAtom p := fun h => by
    obtain ⟨p, hp, rfl⟩ := List.mem_map.mp h
    exact ⟨r, hr, p, hp, rfl⟩
  unfold capRunAtoms at h
  split at h
  · exact Or.inl (hp h)
  · rw [List.mem_append, List.mem_append] at h
    rcases h with (h | h) | h
    · obtain ⟨m, _, rfl⟩ := List.mem_map.mp h
      exact Or.inr ⟨m, rfl⟩
    · exact Or.inl (hp h)
    · obtain ⟨m, _, rfl⟩ := List.mem_map.mp h
      exact Or.inr ⟨m, rfl⟩

theorem openMarks_src (e : Emphasis) : srcs (openMarks e) = emphasisOpen e := by cases e <;> decide
theorem closeMarks_src (e : Emphasis) : srcs (closeMarks e) = emphasisClose e := by cases e <;> decide

/-! ### Conditions -/

theorem textOk_words {t : Str} (h : TextWords t) : TextOk t := by
  refine ⟨?_, fun c hc => h.pairs c ?_, h.first, fun c hc => h.last c ?_, ⟨h.tags, h.last _ (by decide), h.slash⟩, fun hu => ?_⟩
  · intro c hc hm
    refine h.chars c hc ?_
    revert hm; simp only [List.mem_cons, List.not_mem_nil, or_false]; tauto
  · revert hc; simp only [List.mem_cons, List.not_mem_nil, or_false]; tauto
  · revert hc; simp only [List.mem_cons, List.not_mem_nil, or_false]; tauto
  · obtain ⟨c, hc, h1, h2, h3⟩ := h.marker hu
    simp only [List.mem_cons, List.not_mem_nil, or_false, not_or] at h3
    refine ⟨c, hc, ?_, h3.2⟩
    simp only [tokenChar, Bool.or_eq_false_iff, Bool.and_eq_false_iff, decide_eq_false_iff_not]
    exact ⟨⟨by tauto, h3.1⟩, by tauto⟩

theorem mem_runAtoms {env : ParserEnv} {r : Run} {a : Atom} (h : a ∈ runAtoms env r) : (∃ p ∈ r.parts, a = inlineAtom env p) ∨ ∃ m, a = .mark m := by
  unfold runAtoms at h
  have hp : a ∈ r.parts.map (inlineAtom env) → ∃ p ∈ r.parts, a = inlineAtom env p := fun h => by
    obtain ⟨p, hp, rfl⟩ := List.mem_map.mp h
    exact ⟨p, hp, rfl⟩
  split at h
  · exact Or.inl (hp h)
  · rw [List.mem_append, List.mem_append] at h
    rcases h with (h | h) | h
    · obtain ⟨m, _, rfl⟩ := List.mem_map.mp h
      exact Or.inr ⟨m, rfl⟩
    · exact Or.inl (hp h)
    · obtain ⟨m, _, rfl⟩ := List.mem_map.mp h
      exact Or.inr ⟨m, rfl⟩

theorem mem_richAtoms {env : ParserEnv} {l : RichLine} {a : Atom} (h : a ∈ richAtoms env l) : (∃ r ∈ l, ∃ p ∈ r.parts, a = inlineAtom env p) ∨ ∃ m, a = .mark m := by
  obtain ⟨r, hr, h⟩ := List.mem_flatMap.mp h
  rcases mem_runAtoms h with ⟨p, hp, h⟩ | h
  · exact Or.inl ⟨r, hr, p, hp, h⟩
  · exact Or.inr h

/-- How a part of a caption is written in the article. -/
def writtenCap : CapAtom → Str
  | .mark .italicOpen | .mark .italicClose => b!"''"
  | .mark .boldOpen | .mark .boldClose => b!"'''"
  | a => a.src

def capWritten : Option (List CapAtom) → Str
  | none => []
  | some c => b!"|" ++ c.flatMap writtenCap

/-- How an atom is written in the article. -/
def writtenAtom : Atom → Str
  | .mark .italicOpen | .mark .italicClose => b!"''"
  | .mark .boldOpen | .mark .boldClose => b!"'''"
  | .image i _ cap => b!"[[" ++ frontOf i ++ capWritten cap ++ b!"]]"
  | .ref _ attrs space note => refWord note ++ attrs.text ++ spaces space ++ refRest RefText.written note
  | a => a.src

theorem writtenCap_eq (a : CapAtom) : writtenAtom a.atom = writtenCap a := by
  cases a with
  | mark m => cases m <;> rfl
  | _ => rfl

theorem captionSource_atoms (c : List CaptionRun) : captionSource c = (capAtoms c).flatMap writtenCap := by
  have hps : ∀ ps : List CaptionPart, (ps.map capPartAtom).flatMap writtenCap = ps.flatMap CaptionPart.source := by
    intro ps
    rw [List.flatMap_map]
    congr 1
    funext p
    cases p <;> rfl
  induction c with
  | nil => rfl
  | cons r c ih =>
    show r.source ++ captionSource c = (capRunAtoms r ++ capAtoms c).flatMap writtenCap
    rw [ih, List.flatMap_append]
    congr 1
    unfold CaptionRun.source capRunAtoms
    cases r.style with
    | none => exact (hps _).symm
    | some e =>
      simp only [List.flatMap_append, hps]
      cases e <;> rfl

theorem picture_source (p : ArticleImage) : p.written.source = b!"[[" ++ frontOf ⟨p.space, p.name, p.options, none⟩ ++
    capWritten (p.caption.map capAtoms) ++ b!"]]" := by
  obtain ⟨space, name, options, caption⟩ := p
  cases caption with
  | none => simp [ArticleImage.written, WikiImage.source, WikiImage.inner, frontOf, WikiImage.front, capWritten]
  | some c => simp [ArticleImage.written, WikiImage.source, WikiImage.inner, frontOf, WikiImage.front, capWritten, captionSource_atoms]

theorem writtenInline (env : ParserEnv) (p : Inline) : writtenAtom (inlineAtom env p) = p.source := by
  cases p with
  | image p => exact (picture_source p).symm
  | ref r =>
    obtain ⟨number, attrs, space, kind⟩ := r
    cases kind with
    | define c => simp [writtenAtom, inlineAtom, kindMap, refWord, refRest, Inline.source, ArticleRef.source, refText]
    | _ => rfl
  | _ => rfl

theorem lineSource_atoms (env : ParserEnv) (l : RichLine) : lineSource l = (richAtoms env l).flatMap writtenAtom := by
  have hps : ∀ ps : List Inline, (ps.map (inlineAtom env)).flatMap writtenAtom = ps.flatMap Inline.source := by
    intro ps
    rw [List.flatMap_map]
    congr 1
    funext p
    exact writtenInline env p
  induction l with
  | nil => rfl
  | cons r l ih =>
    show r.source ++ lineSource l = _
    rw [ih]
    show r.source ++ _ = (runAtoms env r ++ richAtoms env l).flatMap writtenAtom
    rw [List.flatMap_append]
    congr 1
    unfold Run.source runAtoms
    cases r.style with
    | none => exact (hps _).symm
    | some e =>
      simp only [List.flatMap_append, hps]
      cases e <;> rfl

/-- Apart from apostrophes, atoms are written with their own characters. -/
theorem mem_writtenCap {a : CapAtom} {c : Byte} (hc : c ≠ 0x27) (h : c ∈ writtenCap a) : c ∈ a.src := by
  cases a with
  | mark m => cases m <;> first | exact h | simp [writtenCap, hc] at h
  | _ => exact h

theorem mem_writtenAtom {env : ParserEnv} {a : Atom} (ho : a.Ok env) {c : Byte} (hc : c ≠ 0x27) (h : c ∈ writtenAtom a) : c ∈ a.src := by
  cases a with
  | mark m => cases m <;> first | exact h | simp [writtenAtom, hc] at h
  | image i file cap =>
    have hcap : c ∈ capWritten cap → c ∈ capText cap := by
      cases cap with
      | none => exact id
      | some x =>
        simp only [capWritten, capText, List.mem_append]
        rintro (h | h)
        · exact Or.inl h
        · obtain ⟨a, ha, h⟩ := List.mem_flatMap.mp h
          exact Or.inr (mem_capSrc.mpr ⟨a, ha, mem_writtenCap hc h⟩)
    simp only [writtenAtom, Atom.src, List.mem_append] at h ⊢
    tauto
  | ref number attrs space note =>
    have ho : RefOk attrs note := ho
    have hr : c ∈ refRest RefText.written note → c ∈ refRest RefText.marked note := by
      cases note with
      | mention => exact id
      | list _ => exact id
      | define x =>
        simp only [refRest, List.mem_append]
        rintro ((h | h) | h)
        · exact Or.inl (Or.inl h)
        · exact Or.inl (Or.inr ((ho.written x rfl c h).resolve_left hc))
        · exact Or.inr h
    simp only [writtenAtom, Atom.src, List.mem_append] at h ⊢
    tauto
  | _ => exact h

theorem written_texts (as : List Atom) (h : ∀ a ∈ as, a.isText = true) : as.flatMap writtenAtom = srcs as := by
  induction as with
  | nil => rfl
  | cons a as ih =>
    rw [List.flatMap_cons, ih fun x hx => h x (by simp [hx]), srcs_cons]
    have := h a (by simp)
    cases a <;> first | rfl | simp [Atom.isText] at this

theorem mem_takeWhile_true {α : Type} {p : α → Bool} {l : List α} {a : α} (h : a ∈ l.takeWhile p) : p a = true := by
  induction l with
  | nil => simp at h
  | cons x l ih =>
    rw [List.takeWhile_cons] at h
    split at h
    · rcases List.mem_cons.mp h with rfl | h
      · assumption
      · exact ih h
    · simp at h

theorem lead_written (as : List Atom) : leadText as <+: as.flatMap writtenAtom := by
  rw [leadText, ← written_texts _ (fun a ha => mem_takeWhile_true ha)]
  conv_rhs => rw [← List.takeWhile_append_dropWhile (p := Atom.isText) (l := as)]
  rw [List.flatMap_append]
  exact List.prefix_append _ _

theorem trail_written (as : List Atom) : trailText as <:+ as.flatMap writtenAtom := by
  rw [trailText, ← written_texts _ (fun a ha => mem_takeWhile_true (List.mem_reverse.mp ha))]
  have : as = (as.reverse.dropWhile Atom.isText).reverse ++ (as.reverse.takeWhile Atom.isText).reverse := by
    rw [← List.reverse_append, List.takeWhile_append_dropWhile, List.reverse_reverse]
  conv_rhs => rw [this]
  rw [List.flatMap_append]
  exact List.suffix_append _ _

theorem runAtoms_ne (env : ParserEnv) {r : Run} (h : r.parts ≠ []) : runAtoms env r ≠ [] := by
  unfold runAtoms
  split
  · simpa using h
  · simp [h]

theorem richAtoms_ne (env : ParserEnv) {l : RichLine} (hne : l ≠ []) (h : ∀ r ∈ l, r.parts ≠ []) : richAtoms env l ≠ [] := by
  obtain ⟨r, rest, rfl⟩ := List.exists_cons_of_ne_nil hne
  have := runAtoms_ne env (h r (by simp))
  simp [richAtoms, this]

theorem capPartAtom_ok {env : ParserEnv} {p : CaptionPart} (h : p.WellFormed env) : (capPartAtom p).Ok env := by
  cases p with
  | text t => exact ⟨textOk_words h.2.1, h.2.2.2, fun hn => h.2.1.chars _ hn (by decide), fun hn => h.2.1.chars _ hn (by decide), h.2.2.1⟩
  | link l => exact ⟨h.1, h.2.1, h.2.2.2⟩

theorem capSrc_ne {env : ParserEnv} {c : List CaptionRun} (h : CaptionOk env c) : capSrc (capAtoms c) ≠ [] := by
  obtain ⟨r, rest, rfl⟩ := List.exists_cons_of_ne_nil h.nonEmpty
  obtain ⟨h1, h2⟩ := h.runs r (by simp)
  obtain ⟨p, ps, e⟩ := List.exists_cons_of_ne_nil h1
  have hp := h2 p (by simp [e])
  have hs : (capPartAtom p).src ≠ [] := by
    cases p with
    | text t => exact hp.1
    | link l => simp [capPartAtom, CapAtom.src]
  intro h0
  have hm : capPartAtom p ∈ capAtoms (r :: rest) := by
    refine List.mem_flatMap.mpr ⟨r, by simp, ?_⟩
    unfold capRunAtoms
    split <;> simp [e]
  obtain ⟨x, y, e'⟩ := List.exists_cons_of_ne_nil hs
  have : x ∈ capSrc (capAtoms (r :: rest)) := mem_capSrc.mpr ⟨_, hm, by simp [e']⟩
  rw [h0] at this
  simp at this

theorem capAtoms_ok {env : ParserEnv} {c : List CaptionRun} (h : CaptionOk env c) : CapOk env (capAtoms c) := by
  obtain ⟨c1, c2⟩ := clean_of_trimSpace h.trimmed
  have hw : captionSource c = (richAtoms env (c.map CaptionRun.run)).flatMap writtenAtom := by
    rw [captionSource_line, lineSource_atoms env]
  have hlead : capLead (capAtoms c) <+: captionSource c := by
    rw [← leadText_atoms, capAtoms_line env, hw]
    exact lead_written _
  have htrail : capTrail (capAtoms c) <:+ captionSource c := by
    rw [← trailText_atoms, capAtoms_line env, hw]
    exact trail_written _
  refine ⟨?_, capSrc_ne h, fun sp hsp hp => c1 sp hsp (hp.trans hlead), ?_, fun sp hsp hp => c2 sp hsp (hp.trans htrail),
    ⟨fun hp => h.free.1.1 (hp.trans hlead), fun hp => h.free.1.2.1 (hp.trans hlead), fun hp => h.free.1.2.2 (hp.trans htrail)⟩, ?_⟩
  · intro a ha
    rcases mem_capAtoms ha with ⟨r, hr, p, hp, rfl⟩ | ⟨m, rfl⟩
    · exact capPartAtom_ok ((h.runs r hr).2 p hp)
    · trivial
  · intro x hx
    refine h.start x ?_
    obtain ⟨r, hr⟩ := hlead
    rw [← hr, List.head?_append, hx]
    rfl
  · rintro ⟨p, hp, hpre⟩
    exact h.free.2 ⟨p, hp, hpre.trans hlead⟩

theorem picture_ok {env : ParserEnv} {p : ArticleImage} (h : p.WellFormed env) :
    ImageOk env ⟨p.space, p.name, p.options, none⟩ (p.written.file env) (p.caption.map capAtoms) := by
  have hin : ({ p.written with caption := none } : WikiImage).inner = WikiImage.front ⟨p.space, p.name, p.options, none⟩ := by
    simp [WikiImage.inner, WikiImage.front, ArticleImage.written]
  have ht := h.trimmed
  have hwords := h.words
  rw [hin] at ht hwords
  obtain ⟨c1, c2⟩ := clean_of_trimSpace ht
  refine ⟨h.reads, ?_, h.wanted, h.file, rfl, hwords, c1, ?_, c2, ?_⟩
  · obtain ⟨x1, x2, x3, x4, x5⟩ := h.image
    refine ⟨x1, x2, x3, x4, fun hc => x5 ?_⟩
    simpa [withCap, ArticleImage.written] using hc
  · intro x hx
    refine h.start x ?_
    have hn := h.image.name.1
    cases hname : p.name with
    | nil => exact absurd (by show trimSpace p.name = []; rw [hname]; decide) hn
    | cons y t =>
      rw [WikiImage.front, hname] at hx
      simpa using hx
  · intro c hc
    rw [Option.map_eq_some_iff] at hc
    obtain ⟨c', e, rfl⟩ := hc
    exact capAtoms_ok (h.caption c' e)

theorem text_of_line {env : ParserEnv} {l : RichLine} {t : Str} (h : .text t ∈ richAtoms env l) : ∃ r ∈ l, .text t ∈ r.parts := by
  rcases mem_richAtoms h with ⟨r, hr, p, hp, e⟩ | ⟨m, e⟩
  · cases p with
    | text t' =>
      cases e
      exact ⟨r, hr, hp⟩
    | link l => cases e
    | web url label => cases e
    | image p => cases e
    | math attributes formula => cases e
    | ref r => cases e
  · cases e

theorem leafOf_ok_of {env : ParserEnv} (html : HtmlEnv) {l : RichLine} (h : RichLineOk env l) (hok : ∀ a ∈ richAtoms env l, a.Ok env) :
    LeafOk env (leafOf env html l) := by
  obtain ⟨c1, c2⟩ := clean_of_trimSpace h.trimmed
  have hw := lineSource_atoms env l
  refine ⟨hok, ?_, ⟨?_, ?_, ?_⟩, ?_, ?_, ?_⟩
  · rw [mem_srcs]
    rintro ⟨a, ha, hn⟩
    rcases mem_richAtoms ha with ⟨r, hr, p, hp, rfl⟩ | ⟨m, rfl⟩
    · cases p with
      | text t =>
        have := (h.runs r hr).2.1 _ hp
        exact this.2.chars _ hn (by decide)
      | link l => exact (hok _ ha).no_newline rfl hn
      | web url label => exact (hok _ ha).no_newline rfl hn
      | image p => exact (hok _ ha).no_newline rfl hn
      | math attributes formula => exact (hok _ ha).no_newline rfl hn
      | ref r => exact (hok _ ha).no_newline rfl hn
    · exact (hok _ ha).no_newline rfl hn
  · intro sp hsp hp
    exact c1 sp hsp (hp.trans (hw ▸ lead_written (richAtoms env l)))
  · intro c hc
    refine h.start c ?_
    obtain ⟨r, hr⟩ := lead_written (richAtoms env l)
    rw [hw, ← hr, List.head?_append]
    have hc : (leadText (richAtoms env l)).head? = some c := hc
    rw [hc]
    rfl
  · intro sp hsp hp
    exact c2 sp hsp (hp.trans (hw ▸ trail_written (richAtoms env l)))
  · intro t ht
    rcases mem_richAtoms ht with ⟨r, hr, p, hp, e⟩ | ⟨m, e⟩
    · cases p with
      | text t' =>
        cases e
        exact ((h.runs r hr).2.1 _ hp).1
      | link l => cases e
      | web url label => cases e
      | image p => cases e
      | math attributes formula => cases e
      | ref r => cases e
    · cases e
  · exact richAtoms_ne env h.nonEmpty fun r hr => (h.runs r hr).1
  · intro t ht
    obtain ⟨r, hr, hp⟩ := text_of_line ht
    exact fun hn => ((h.runs r hr).2.1 _ hp).2.chars _ hn (by decide)

/-! ### The texts of references -/

theorem notePart_inline {env : ParserEnv} {p : NotePart} (h : p.WellFormed env) : p.inline.WellFormed env ∧ p.inline.unstyled ∧ p.inline.source = p.source := by
  cases p with
  | text t => exact ⟨⟨h.1, h.2.1⟩, trivial, rfl⟩
  | link l => exact ⟨h, trivial, rfl⟩
  | web url label => exact ⟨h, trivial, rfl⟩

theorem note_line {env : ParserEnv} {c : NoteText} (h : NoteOk env c) : RichLineOk env (c.map NoteRun.run) := by
  refine ⟨by simpa using h.nonEmpty, ?_, h.separated, by rw [← noteSource_line]; exact h.trimmed, by rw [← noteSource_line]; exact h.start⟩
  intro r hr
  obtain ⟨r', hr', rfl⟩ := List.mem_map.mp hr
  obtain ⟨h1, h2⟩ := h.runs r' hr'
  refine ⟨by simpa [NoteRun.run] using h1, ?_, fun _ => ?_⟩
  · intro p hp
    obtain ⟨p', hp', rfl⟩ := List.mem_map.mp hp
    exact (notePart_inline (h2 p' hp')).1
  · intro p hp
    obtain ⟨p', hp', rfl⟩ := List.mem_map.mp hp
    exact (notePart_inline (h2 p' hp')).2.1

theorem mem_noteAtoms {c : NoteText} {a : Atom} (h : a ∈ noteAtoms c) : (∃ r ∈ c, ∃ p ∈ r.parts, a = notePartAtom p) ∨ ∃ m, a = .mark m := by
  obtain ⟨r, hr, h⟩ := List.mem_flatMap.mp h
  have hp : a ∈ r.parts.map notePartAtom → ∃ r ∈ c, ∃ p ∈ r.parts, a = notePartAtom p := fun h => by
    obtain ⟨p, hp, rfl⟩ := List.mem_map.mp h
    exact ⟨r, hr, p, hp, rfl⟩
  unfold noteRunAtoms at h
  split at h
  · exact Or.inl (hp h)
  · rw [List.mem_append, List.mem_append] at h
    rcases h with (h | h) | h
    · obtain ⟨m, _, rfl⟩ := List.mem_map.mp h
      exact Or.inr ⟨m, rfl⟩
    · exact Or.inl (hp h)
    · obtain ⟨m, _, rfl⟩ := List.mem_map.mp h
      exact Or.inr ⟨m, rfl⟩

theorem noteAtoms_ok {env : ParserEnv} {c : NoteText} (h : NoteOk env c) : ∀ a ∈ noteAtoms c, a.Ok env := by
  intro a ha
  rcases mem_noteAtoms ha with ⟨r, hr, p, hp, rfl⟩ | ⟨m, rfl⟩
  · have := (h.runs r hr).2 p hp
    cases p with
    | text t => exact textOk_words this.2.1
    | link l => exact ⟨this.1, this.2.1, this.2.2.2⟩
    | web url label => exact ⟨this.1, this.2.1, this.2.2⟩
  · trivial

theorem noteAtoms_simple (c : NoteText) : ∀ a ∈ noteAtoms c, a.isMath = false ∧ a.isRef = false := by
  intro a ha
  rcases mem_noteAtoms ha with ⟨r, hr, p, hp, rfl⟩ | ⟨m, rfl⟩
  · cases p <;> exact ⟨rfl, rfl⟩
  · exact ⟨rfl, rfl⟩

theorem note_leaf {env : ParserEnv} (html : HtmlEnv) {c : NoteText} (h : NoteOk env c) : LeafOk env (leafOf env html (c.map NoteRun.run)) :=
  leafOf_ok_of html (note_line h) (by rw [← noteAtoms_line env]; exact noteAtoms_ok h)

theorem noteWritten_mem {env : ParserEnv} {c : NoteText} (h : NoteOk env c) {x : Byte} (hx : x ∈ noteSource c) : x = 0x27 ∨ x ∈ srcs (noteAtoms c) := by
  by_cases hq : x = 0x27
  · exact Or.inl hq
  · refine Or.inr ?_
    rw [noteSource_line, lineSource_atoms env, ← noteAtoms_line env] at hx
    obtain ⟨a, ha, hx⟩ := List.mem_flatMap.mp hx
    exact mem_srcs.mpr ⟨a, ha, mem_writtenAtom (noteAtoms_ok h a ha) hq hx⟩

theorem ref_ok {env : ParserEnv} {r : ArticleRef} (h : r.WellFormed env) : RefOk r.attrs (kindMap refText r.kind) := by
  refine ⟨h.attributes, h.chars, h.pairs 0x27 (by decide), fun e => h.name (kindMap_mention e), ?_, ?_⟩
  · intro c hc
    obtain ⟨c', e, rfl⟩ := kindMap_define hc
    exact fun x hx => noteWritten_mem (h.text c' e) hx
  · intro c hc
    obtain ⟨c', e, rfl⟩ := kindMap_define hc
    have hn := h.text c' e
    have hok := noteAtoms_ok hn
    refine ⟨?_, srcs_no_quotes hok⟩
    intro x hx hm
    simp only [List.mem_cons, List.not_mem_nil, or_false] at hm
    rcases hm with rfl | rfl | rfl
    · obtain ⟨a, ha, hx⟩ := mem_srcs.mp hx
      have h2 := hok a ha
      rcases mem_noteAtoms ha with ⟨r, hr, p, hp, rfl⟩ | ⟨m, rfl⟩
      · cases p with
        | text t => exact ((hn.runs r hr).2 _ hp).2.1.chars _ hx (by decide)
        | link l => exact h2.no_newline rfl hx
        | web url label => exact h2.no_newline rfl hx
      · exact h2.no_newline rfl hx
    · refine srcs_no_brace hok ?_ (fun a ha => (noteAtoms_simple c' a ha).1) hx
      intro t ht
      rcases mem_noteAtoms ht with ⟨r, hr, p, hp, e⟩ | ⟨m, e⟩
      · cases p <;> cases e
        exact fun hx => ((hn.runs r hr).2 _ hp).2.1.chars _ hx (by decide)
      · cases e
    · obtain ⟨a, ha, hx⟩ := mem_srcs.mp hx
      refine (hok a ha).no_lt ?_ (noteAtoms_simple c' a ha).1 (noteAtoms_simple c' a ha).2 hx
      intro t e
      rcases mem_noteAtoms (e ▸ ha) with ⟨r, hr, p, hp, e⟩ | ⟨m, e⟩
      · cases p <;> cases e
        exact ((hn.runs r hr).2 _ hp).2.2
      · cases e

theorem inlineAtom_ok {env : ParserEnv} {p : Inline} (h : p.WellFormed env) : (inlineAtom env p).Ok env := by
  cases p with
  | text t => exact textOk_words h.2
  | link l => exact ⟨h.1, h.2.1, h.2.2.2⟩
  | web url label => exact ⟨h.1, h.2.1, h.2.2⟩
  | image p => exact picture_ok h
  | math attributes formula => exact h
  | ref r => exact ref_ok h

theorem leafOf_ok {env : ParserEnv} (html : HtmlEnv) {l : RichLine} (h : RichLineOk env l) : LeafOk env (leafOf env html l) := by
  refine leafOf_ok_of html h fun a ha => ?_
  rcases mem_richAtoms ha with ⟨r, hr, p, hp, rfl⟩ | ⟨m, rfl⟩
  · exact inlineAtom_ok ((h.runs r hr).2.1 p hp)
  · trivial

theorem leafOf_cell {env : ParserEnv} (html : HtmlEnv) {atMark : Bool} {l : RichLine} (h : RichLineOk env l) (hm : NoCellMarks atMark l) :
    CellGood env atMark (leafOf env html l) := by
  refine ⟨leafOf_ok html h, fun t ht => ?_, fun ha c hc => hm.2 ha c ?_⟩
  · obtain ⟨r, hr, hp⟩ := text_of_line ht
    exact hm.1 r hr _ hp t rfl
  · obtain ⟨r, hr⟩ := lead_written (richAtoms env l)
    rw [lineSource_atoms env l, ← hr, List.head?_append]
    have hc : (leadText (richAtoms env l)).head? = some c := hc
    rw [hc]
    rfl

/-! ### HTML -/

theorem capAtoms_show (html : HtmlEnv) (tokens : List (Str × Token)) (c : List CaptionRun) :
    ∃ hs, List.Forall₂ (CapShows html tokens) (capAtoms c) hs ∧ captionHtml c = hs.flatten := by
  have append : ∀ (a b : List CapAtom) (x y : Str), CaptionShows html tokens (some a) x → CaptionShows html tokens (some b) y →
      CaptionShows html tokens (some (a ++ b)) (x ++ y) := by
    rintro a b x y ⟨hs, h1, rfl⟩ ⟨hs', h2, rfl⟩
    exact ⟨hs ++ hs', List.rel_append h1 h2, by simp⟩
  have hps : ∀ ps : List CaptionPart, CaptionShows html tokens (some (ps.map capPartAtom)) (ps.flatMap CaptionPart.html) := by
    intro ps
    induction ps with
    | nil => exact ⟨[], .nil, rfl⟩
    | cons p ps ih =>
      refine append [capPartAtom p] _ p.html _ ⟨[p.html], .cons ?_ .nil, by simp⟩ ih
      cases p <;> rfl
  show CaptionShows html tokens (some (capAtoms c)) (captionHtml c)
  induction c with
  | nil => exact ⟨[], .nil, rfl⟩
  | cons r c ih =>
    refine append (capRunAtoms r) (capAtoms c) r.html (captionHtml c) ?_ ih
    unfold capRunAtoms CaptionRun.html
    cases r.style with
    | none => exact hps _
    | some e =>
      refine append _ _ _ _ (append _ _ _ _ ?_ (hps _)) ?_
      · cases e
        · exact ⟨[b!"<i>"], .cons rfl .nil, rfl⟩
        · exact ⟨[b!"<b>"], .cons rfl .nil, rfl⟩
        · exact ⟨[b!"<i>", b!"<b>"], .cons rfl (.cons rfl .nil), rfl⟩
      · cases e
        · exact ⟨[b!"</i>"], .cons rfl .nil, rfl⟩
        · exact ⟨[b!"</b>"], .cons rfl .nil, rfl⟩
        · exact ⟨[b!"</b>", b!"</i>"], .cons rfl (.cons rfl .nil), rfl⟩

theorem leafOf_shows (env : ParserEnv) (html : HtmlEnv) (tokens : List (Str × Token)) (l : RichLine) (hl : Rendered html l) :
    LineShows html tokens (leafOf env html l).1 (leafOf env html l).2 := by
  have hps : ∀ ps : List Inline, (∀ p ∈ ps, ∀ attributes formula, p = .math attributes formula → ∃ picture, html.math formula = .ok picture) →
      LineShows html tokens (ps.map (inlineAtom env)) (ps.flatMap (Inline.html (picHtml env html))) := by
    intro ps hm
    induction ps with
    | nil => exact LineShows.nil
    | cons p ps ih =>
      refine LineShows.cons ?_ (ih fun x hx => hm x (by simp [hx]))
      cases p with
      | image p =>
        obtain ⟨space, name, options, caption⟩ := p
        cases caption with
        | none => exact ⟨[], rfl, rfl⟩
        | some c => exact ⟨captionHtml c, capAtoms_show html tokens c, rfl⟩
      | math attributes formula =>
        obtain ⟨⟨path, width, height, style⟩, h⟩ := hm _ (by simp) attributes formula rfl
        refine ⟨path, width, height, style, h, ?_⟩
        show formulaPicture html formula = _
        rw [formulaPicture, h]
      | ref r =>
        obtain ⟨number, attrs, space, kind⟩ := r
        cases kind with
        | list entries =>
          show join b!"\n" (entries.map entryHtml) = join b!"\n" ((entries.map fun e => (e.1, refText e.2)).map noteEntry)
          rw [List.map_map]
          rfl
        | _ => rfl
      | _ => rfl
  show LineShows html tokens (richAtoms env l) (lineHtml (picHtml env html) l)
  induction l with
  | nil => exact LineShows.nil
  | cons r l ih =>
    refine LineShows.append (x := r.html (picHtml env html)) ?_ (ih fun x hx => hl x (by simp [hx]))
    have hr := hps r.parts (hl r (by simp))
    unfold runAtoms Run.html
    cases r.style with
    | none => exact hr
    | some e =>
      refine LineShows.append (LineShows.append ?_ hr) ?_
      · cases e
        · exact LineShows.single rfl
        · exact LineShows.single rfl
        · exact LineShows.cons (x := b!"<i>") rfl (LineShows.single rfl)
      · cases e
        · exact LineShows.single rfl
        · exact LineShows.single rfl
        · exact LineShows.cons (x := b!"</b>") rfl (LineShows.single rfl)

theorem lineHtml_start {env : ParserEnv} (html : HtmlEnv) {l : RichLine} (h : RichLineOk env l) : ItemStart (lineHtml (picHtml env html) l) := by
  obtain ⟨c1, _⟩ := clean_of_trimSpace h.trimmed
  obtain ⟨r, rest, rfl⟩ := List.exists_cons_of_ne_nil h.nonEmpty
  have hr := h.runs r (by simp)
  -- texts without white space at the beginning
  have key : ∀ (t u : Str), (∀ sp ∈ spaceChars, t <+: sp → t = [] ∨ t = sp) → t.getLast? ≠ some 0x3C → ¬ b!"<l" <+: t → t ≠ [] →
      (∀ sp ∈ spaceChars, ¬ sp <+: t) → ItemStart (t ++ u) := by
    intro t u hw hlast hl hne hc
    refine ⟨?_, by simp [hne], ?_⟩
    · intro sp hsp hp
      rcases List.prefix_or_prefix_of_prefix hp (List.prefix_append t u) with h1 | h1
      · exact hc sp hsp h1
      · rcases hw sp hsp h1 with h2 | h2
        · exact hne h2
        · exact hc sp hsp (h2 ▸ List.prefix_refl _)
    · match t, hne with
      | [c], _ =>
        intro hp
        rw [List.cons_append, List.cons_prefix_cons] at hp
        exact hlast (by rw [← hp.1]; rfl)
      | c :: d :: v, _ =>
        intro hp
        simp only [List.cons_append, List.cons_prefix_cons] at hp
        exact hl (by rw [← hp.1, ← hp.2.1]; exact ⟨v, rfl⟩)
  have tag : ∀ (t : Str) (u : Str), t = b!"<i>" ∨ t = b!"<b>" ∨ t = b!"<a " ∨ t = b!"<img" ∨ t = b!"<div" → ItemStart (t ++ u) := by
    intro t u ht
    refine ⟨?_, ?_⟩
    · intro sp hsp hp
      have hall : ∀ sp ∈ spaceChars, ∃ c v, sp = c :: v ∧ c ≠ 0x3C := by
        intro sp hsp
        have h1 : ∀ sp ∈ spaceChars, sp ≠ [] ∧ sp.head? ≠ some 0x3C := by decide
        obtain ⟨h2, h3⟩ := h1 sp hsp
        obtain ⟨c, v, rfl⟩ := List.exists_cons_of_ne_nil h2
        exact ⟨c, v, rfl, by simpa using h3⟩
      obtain ⟨c, v, rfl, hc⟩ := hall sp hsp
      rcases ht with rfl | rfl | rfl | rfl | rfl <;>
        (simp only [List.cons_append, List.cons_prefix_cons] at hp; exact hc hp.1)
    · rcases ht with rfl | rfl | rfl | rfl | rfl <;> exact ⟨by simp, by simp [List.cons_prefix_cons]⟩
  show ItemStart (r.html (picHtml env html) ++ lineHtml (picHtml env html) rest)
  obtain ⟨style, parts⟩ := r
  cases style with
  | some e =>
    cases e
    · exact tag b!"<i>" _ (by simp)
    · exact tag b!"<b>" _ (by simp)
    · exact tag b!"<i>" (b!"<b>" ++ _) (by simp)
  | none =>
    obtain ⟨p, ps, rfl⟩ := List.exists_cons_of_ne_nil hr.1
    have hp := hr.2.1 p (by simp)
    show ItemStart ((p.html (picHtml env html) ++ ps.flatMap (Inline.html (picHtml env html))) ++ lineHtml (picHtml env html) rest)
    rw [List.append_assoc]
    cases p with
    | text t =>
      refine key t _ hp.2.complete (hp.2.last _ (by decide)) hp.2.item hp.1 fun sp hsp hpre => c1 sp hsp (hpre.trans ?_)
      exact ⟨ps.flatMap Inline.source ++ lineSource rest, by simp [lineSource, Run.source, Inline.source]⟩
    | link l =>
      have hl := hp.2.2.2
      have hlt : (0x3C : Byte) ∉ l.shown := Words.not_mem hl.words (by decide)
      exact key _ _ hl.words.complete (last_of_not_mem hlt) (fun hp => hlt (hp.subset (by simp))) hl.nonEmpty (clean_of_trimSpace hl.trimmed).1
    | web url label =>
      have := tag b!"<a " (b!"href=\"" ++ url ++ b!"\">" ++ label ++ b!"</a>" ++ (ps.flatMap (Inline.html (picHtml env html)) ++ lineHtml (picHtml env html) rest)) (by simp)
      simpa [Inline.html] using this
    | image p =>
      show ItemStart (imageHtml _ _ _ ++ _)
      unfold imageHtml
      split
      · simp only [List.append_assoc]
        exact tag b!"<div" (b!" class=\"figure\">\n<img alt=\"image\" src=\"./" ++ _) (by simp)
      · simp only [List.append_assoc]
        exact tag b!"<img" (b!" alt=\"image\" class=\"inline\" src=\"./" ++ _) (by simp)
    | ref r =>
      show ItemStart (r.html ++ _)
      obtain ⟨u, e⟩ : ∃ u, r.html = b!"[" ++ u := by
        unfold ArticleRef.html
        cases hk : r.kind with
        | list entries =>
          cases entries with
          | nil => exact absurd hk hp.entries
          | cons e es =>
            cases es with
            | nil => exact ⟨_, rfl⟩
            | cons e' es => exact ⟨_, rfl⟩
        | _ => exact ⟨_, rfl⟩
      rw [e, List.append_assoc]
      refine ⟨?_, by simp, by simp [List.cons_prefix_cons]⟩
      intro sp hsp hp
      have h1 : ∀ sp ∈ spaceChars, sp ≠ [] ∧ sp.head? ≠ some 0x5B := by decide
      obtain ⟨h2, h3⟩ := h1 sp hsp
      obtain ⟨c, v, rfl⟩ := List.exists_cons_of_ne_nil h2
      exact h3 (by rw [(List.cons_prefix_cons.mp hp).1]; rfl)
    | math attributes formula =>
      obtain ⟨path, width, height, style, e⟩ : ∃ path width height style, formulaPicture html formula = formulaHtml path width height style := by
        unfold formulaPicture
        split
        · exact ⟨_, _, _, _, rfl⟩
        · exact ⟨_, _, _, _, rfl⟩
      show ItemStart (formulaPicture html formula ++ _)
      rw [e, formulaHtml]
      simp only [List.append_assoc]
      exact tag b!"<img" (b!" alt=\"image\" src=\"./" ++ _) (by simp)

/-! ### Replacing the apostrophes -/

def DLine.map {α β : Type} (f : α → β) : DLine α → DLine β
  | .blank => .blank
  | .one pre x post => .one pre (f x) post
  | .pieces ps => .pieces (ps.map (Sum.map id f))

def capRunChunk (r : CaptionRun) : Chunk :=
  match r.style with
  | none => .plain (r.parts.flatMap CaptionPart.source)
  | some e => .sect e (r.parts.flatMap CaptionPart.source)

def noteRunChunk (r : NoteRun) : Chunk :=
  match r.style with
  | none => .plain (r.parts.flatMap NotePart.source)
  | some e => .sect e (r.parts.flatMap NotePart.source)

def refFront (attrs : RefAttrs) (space : Nat) : Str := b!"<ref" ++ attrs.text ++ spaces space ++ b!">"

/-- The parts of an image with a caption and of a reference with a text are separate ones. -/
def inlineChunks : Inline → List Chunk
  | .image ⟨space, name, options, some c⟩ =>
    .plain (b!"[[" ++ frontOf ⟨space, name, options, none⟩ ++ b!"|") :: (c.map capRunChunk ++ [.plain b!"]]"])
  | .ref ⟨_, attrs, space, .define c⟩ => .plain (refFront attrs space) :: (c.map noteRunChunk ++ [.plain b!"</ref>"])
  | p => [.plain p.source]

def runChunks (r : Run) : List Chunk :=
  match r.style with
  | none => r.parts.flatMap inlineChunks
  | some e => [.sect e (r.parts.flatMap Inline.source)]

def pieceChunks : Str ⊕ RichLine → List Chunk
  | .inl s => [.plain s]
  | .inr l => l.flatMap runChunks

def lineChunks : DLine RichLine → List Chunk
  | .blank => []
  | .one pre l post => .plain pre :: (l.flatMap runChunks ++ [.plain post])
  | .pieces ps => ps.flatMap pieceChunks

def docChunks : List (DLine RichLine) → List Chunk
  | [] => []
  | [l] => lineChunks l
  | l :: l' :: ls => lineChunks l ++ .plain b!"\n" :: docChunks (l' :: ls)

@[simp] theorem chunksSource_append (a b : List Chunk) : chunksSource (a ++ b) = chunksSource a ++ chunksSource b := List.flatMap_append
@[simp] theorem chunksMarked_append (a b : List Chunk) : chunksMarked (a ++ b) = chunksMarked a ++ chunksMarked b := List.flatMap_append
@[simp] theorem chunksSource_plain (t : Str) (a : List Chunk) : chunksSource (.plain t :: a) = t ++ chunksSource a := rfl
@[simp] theorem chunksMarked_plain (t : Str) (a : List Chunk) : chunksMarked (.plain t :: a) = t ++ chunksMarked a := rfl
@[simp] theorem chunksSource_nil : chunksSource [] = [] := rfl
@[simp] theorem chunksMarked_nil : chunksMarked [] = [] := rfl

theorem chunksSource_flatMap {α : Type} (f : α → List Chunk) (l : List α) : chunksSource (l.flatMap f) = l.flatMap fun x => chunksSource (f x) := by
  simp only [chunksSource, List.flatMap_assoc]

theorem chunksMarked_flatMap {α : Type} (f : α → List Chunk) (l : List α) : chunksMarked (l.flatMap f) = l.flatMap fun x => chunksMarked (f x) := by
  simp only [chunksMarked, List.flatMap_assoc]

theorem capRuns_source (c : List CaptionRun) : chunksSource (c.map capRunChunk) = captionSource c := by
  unfold chunksSource captionSource
  rw [List.flatMap_map]
  congr 1
  funext r
  unfold capRunChunk CaptionRun.source
  cases r.style <;> rfl

theorem capParts_src (ps : List CaptionPart) : capSrc (ps.map capPartAtom) = ps.flatMap CaptionPart.source := by
  unfold capSrc
  rw [List.flatMap_map]
  congr 1
  funext p
  cases p <;> rfl

theorem capRuns_marked (c : List CaptionRun) : chunksMarked (c.map capRunChunk) = capSrc (capAtoms c) := by
  induction c with
  | nil => rfl
  | cons r c ih =>
    show (capRunChunk r).marked ++ chunksMarked (c.map capRunChunk) = capSrc (capRunAtoms r ++ capAtoms c)
    rw [ih, capSrc_append]
    congr 1
    unfold capRunChunk capRunAtoms
    cases r.style with
    | none => exact (capParts_src _).symm
    | some e =>
      have h1 : capSrc ((openMarkers e).map .mark) = emphasisOpen e := by cases e <;> decide
      have h2 : capSrc ((closeMarkers e).map .mark) = emphasisClose e := by cases e <;> decide
      simp only [Chunk.marked, capSrc_append, capParts_src, h1, h2]

theorem noteRuns_source (c : NoteText) : chunksSource (c.map noteRunChunk) = noteSource c := by
  unfold chunksSource noteSource
  rw [List.flatMap_map]
  congr 1
  funext r
  unfold noteRunChunk NoteRun.source
  cases r.style <;> rfl

theorem noteParts_src (ps : List NotePart) : srcs (ps.map notePartAtom) = ps.flatMap NotePart.source := by
  unfold srcs
  rw [List.flatMap_map]
  congr 1
  funext p
  cases p <;> simp [notePartAtom, Atom.src, NotePart.source, Bracket.inner]

theorem noteRuns_marked (c : NoteText) : chunksMarked (c.map noteRunChunk) = srcs (noteAtoms c) := by
  induction c with
  | nil => rfl
  | cons r c ih =>
    show (noteRunChunk r).marked ++ chunksMarked (c.map noteRunChunk) = srcs (noteRunAtoms r ++ noteAtoms c)
    rw [ih, srcs_append]
    congr 1
    unfold noteRunChunk noteRunAtoms
    cases r.style with
    | none => exact (noteParts_src _).symm
    | some e => simp only [Chunk.marked, srcs_append, noteParts_src, openMarks_src, closeMarks_src]

theorem inlineChunks_source (p : Inline) : chunksSource (inlineChunks p) = p.source := by
  cases p with
  | image p =>
    obtain ⟨space, name, options, caption⟩ := p
    cases caption with
    | none => simp [inlineChunks]
    | some c =>
      show _ = (ArticleImage.written _).source
      rw [picture_source]
      simp [inlineChunks, capRuns_source, capWritten, captionSource_atoms]
  | ref r =>
    obtain ⟨number, attrs, space, kind⟩ := r
    cases kind with
    | define c => simp [inlineChunks, noteRuns_source, Inline.source, ArticleRef.source, refFront]
    | _ => simp [inlineChunks]
  | _ => simp [inlineChunks]

theorem inlineChunks_marked (env : ParserEnv) (p : Inline) : chunksMarked (inlineChunks p) = (inlineAtom env p).src := by
  cases p with
  | image p =>
    obtain ⟨space, name, options, caption⟩ := p
    cases caption with
    | none =>
      show (ArticleImage.written _).source ++ [] = _
      rw [picture_source]
      simp [inlineAtom, Atom.src, capWritten, capText]
    | some c => simp [inlineChunks, capRuns_marked, inlineAtom, Atom.src, capText]
  | ref r =>
    obtain ⟨number, attrs, space, kind⟩ := r
    cases kind with
    | define c => simp [inlineChunks, noteRuns_marked, inlineAtom, Atom.src, refFront, refRest, refText, refWord, kindMap]
    | _ => simp [inlineChunks, inlineAtom, Atom.src, Inline.source, ArticleRef.source, refRest, refWord, kindMap]
  | _ => simp [inlineChunks, inlineAtom, Atom.src, Inline.source, Bracket.inner]

/-- In captions without apostrophes nothing is replaced. -/
theorem inlineAtom_src (env : ParserEnv) {p : Inline} (h : p.unstyled) : (inlineAtom env p).src = p.source := by
  rw [← inlineChunks_marked, ← inlineChunks_source]
  cases p with
  | image p =>
    obtain ⟨space, name, options, caption⟩ := p
    cases caption with
    | none => rfl
    | some c =>
      have : chunksMarked (c.map capRunChunk) = chunksSource (c.map capRunChunk) := by
        unfold chunksMarked chunksSource
        rw [List.flatMap_map, List.flatMap_map]
        refine List.flatMap_congr fun r hr => ?_
        have := h c rfl r hr
        simp [capRunChunk, this, Chunk.marked, Chunk.source]
      simp [inlineChunks, this]
  | ref r =>
    obtain ⟨number, attrs, space, kind⟩ := r
    cases kind with
    | mention => rfl
    | list _ => rfl
    | define c =>
      have : chunksMarked (c.map noteRunChunk) = chunksSource (c.map noteRunChunk) := by
        unfold chunksMarked chunksSource
        rw [List.flatMap_map, List.flatMap_map]
        refine List.flatMap_congr fun r hr => ?_
        have := h c rfl r hr
        simp [noteRunChunk, this, Chunk.marked, Chunk.source]
      simp [inlineChunks, this]
  | _ => rfl

theorem inlines_src (env : ParserEnv) (ps : List Inline) (h : ∀ p ∈ ps, p.unstyled) : srcs (ps.map (inlineAtom env)) = ps.flatMap Inline.source := by
  unfold srcs
  rw [List.flatMap_map]
  exact List.flatMap_congr fun p hp => inlineAtom_src env (h p hp)

theorem runChunks_source (r : Run) : chunksSource (runChunks r) = r.source := by
  unfold runChunks Run.source
  cases r.style with
  | none => simp only [chunksSource_flatMap, inlineChunks_source]
  | some e => simp [chunksSource, Chunk.source]

theorem runChunks_marked (env : ParserEnv) {r : Run} (h : r.style ≠ none → ∀ p ∈ r.parts, p.unstyled) :
    chunksMarked (runChunks r) = srcs (runAtoms env r) := by
  unfold runChunks runAtoms
  cases hs : r.style with
  | none => simp only [chunksMarked_flatMap, inlineChunks_marked env, srcs, List.flatMap_map]
  | some e =>
    rw [hs] at h
    simp [chunksMarked, Chunk.marked, inlines_src env r.parts (h (by simp)), openMarks_src, closeMarks_src]

theorem lineChunks_source (l : DLine RichLine) : chunksSource (lineChunks l) = strOf lineSource l := by
  cases l with
  | blank => rfl
  | one pre l post => simp [lineChunks, strOf, lineSource, chunksSource_flatMap, runChunks_source]
  | pieces ps =>
    rw [lineChunks, chunksSource_flatMap, strOf]
    refine List.flatMap_congr fun p _ => ?_
    cases p with
    | inl s => simp [pieceChunks]
    | inr l => simp [pieceChunks, lineSource, chunksSource_flatMap, runChunks_source]

theorem lineChunks_marked {env : ParserEnv} (html : HtmlEnv) (l : DLine RichLine) (h : l.All (RichLineOk env)) :
    chunksMarked (lineChunks l) = srcs (lineAtoms (l.map (leafOf env html))) := by
  cases l with
  | blank => rfl
  | one pre l post =>
    have : l.flatMap (fun r => chunksMarked (runChunks r)) = srcs (richAtoms env l) := by
      unfold srcs richAtoms
      rw [List.flatMap_assoc]
      exact List.flatMap_congr fun r hr => runChunks_marked env (h.runs r hr).2.2
    simp [lineChunks, lineAtoms, DLine.map, chunksMarked_flatMap, leafOf, this, Atom.src]
  | pieces ps =>
    rw [lineChunks, chunksMarked_flatMap, DLine.map, lineAtoms, srcs, List.flatMap_map, List.flatMap_assoc]
    refine List.flatMap_congr fun p hp => ?_
    cases p with
    | inl s => simp [pieceChunks, pieceAtoms, Atom.src]
    | inr l =>
      have : l.flatMap (fun r => chunksMarked (runChunks r)) = srcs (richAtoms env l) := by
        unfold srcs richAtoms
        rw [List.flatMap_assoc]
        exact List.flatMap_congr fun r hr => runChunks_marked env ((h l hp).runs r hr).2.2
      rw [pieceChunks, chunksMarked_flatMap, this]
      rfl

theorem docChunks_source (ls : List (DLine RichLine)) : chunksSource (docChunks ls) = join b!"\n" (ls.map (strOf lineSource)) := by
  induction ls with
  | nil => rfl
  | cons l ls ih =>
    cases ls with
    | nil => rw [docChunks, lineChunks_source]; rfl
    | cons l' ls =>
      rw [List.map_cons, join_cons_of_ne_nil (by simp), ← ih, ← lineChunks_source]
      simp [docChunks, chunksSource, Chunk.source]

theorem docChunks_marked {env : ParserEnv} (html : HtmlEnv) (ls : List (DLine RichLine)) (h : ∀ l ∈ ls, l.All (RichLineOk env)) :
    chunksMarked (docChunks ls) = srcs (flatLines (ls.map (DLine.map (leafOf env html)))) := by
  induction ls with
  | nil => rfl
  | cons l ls ih =>
    cases ls with
    | nil => exact lineChunks_marked html l (h l (by simp))
    | cons l' ls =>
      rw [List.map_cons, List.map_cons, flatLines, srcs_append, srcs_cons, ← List.map_cons, ← ih fun x hx => h x (by simp at hx ⊢; tauto),
        ← lineChunks_marked html l (h l (by simp))]
      simp [docChunks, Atom.src]

theorem inline_head {env : ParserEnv} {p : Inline} (h : p.WellFormed env) : p.source ≠ [] ∧ p.source.head? ≠ some 39 := by
  cases p with
  | text t => exact ⟨h.1, h.2.first⟩
  | link l => simp [Inline.source]
  | web url label => simp [Inline.source]
  | image p => simp [Inline.source, WikiImage.source]
  | math attributes formula => simp [Inline.source]
  | ref r =>
    rw [Inline.source, ArticleRef.source]
    cases r.kind <;> simp

theorem inline_quiet {env : ParserEnv} {p : Inline} (h : p.WellFormed env) (hu : p.unstyled) : p.source ≠ [] ∧ p.source.head? ≠ some 39 ∧
    ¬ b!"''" <:+: p.source ∧ p.source.getLast? ≠ some 39 := by
  have hok := (inlineAtom_ok h).no_quotes
  rw [inlineAtom_src env hu] at hok
  exact ⟨(inline_head h).1, (inline_head h).2, hok⟩

theorem quiet_flatMap {α : Type} (f : α → Str) (ps : List α) (hne : ps ≠ [])
    (h : ∀ p ∈ ps, f p ≠ [] ∧ (f p).head? ≠ some 39 ∧ ¬ b!"''" <:+: f p ∧ (f p).getLast? ≠ some 39) : ps.flatMap f ≠ [] ∧ Quiet (ps.flatMap f) := by
  have h0 : ps.flatMap f ≠ [] := by
    obtain ⟨p, r, rfl⟩ := List.exists_cons_of_ne_nil hne
    simp [(h p (by simp)).1]
  refine ⟨h0, ?_, ?_, ?_⟩
  · rw [List.flatMap_def]
    refine no_pair_flatten _ fun x hx => ?_
    obtain ⟨p, hp, rfl⟩ := List.mem_map.mp hx
    exact (h p hp).2.2
  · obtain ⟨p, r, rfl⟩ := List.exists_cons_of_ne_nil hne
    obtain ⟨h1, h2, _⟩ := h p (by simp)
    obtain ⟨c, u, e⟩ := List.exists_cons_of_ne_nil h1
    rw [List.flatMap_cons, e]
    rw [e] at h2
    simpa using h2
  · obtain ⟨r, p, rfl⟩ : ∃ r p, ps = r ++ [p] := ⟨_, _, (List.dropLast_append_getLast hne).symm⟩
    obtain ⟨h1, _, _, h2⟩ := h p (by simp)
    rw [List.flatMap_append, List.flatMap_singleton, List.getLast?_append_of_ne_nil _ h1]
    exact h2

theorem inlines_quiet {env : ParserEnv} (ps : List Inline) (hne : ps ≠ []) (h : ∀ p ∈ ps, p.WellFormed env) (hu : ∀ p ∈ ps, p.unstyled) :
    ps.flatMap Inline.source ≠ [] ∧ Quiet (ps.flatMap Inline.source) :=
  quiet_flatMap _ ps hne fun p hp => inline_quiet (h p hp) (hu p hp)

theorem capPart_inline {env : ParserEnv} {p : CaptionPart} (h : p.WellFormed env) : p.inline.WellFormed env ∧ p.inline.unstyled ∧ p.inline.source = p.source := by
  cases p with
  | text t => exact ⟨⟨h.1, h.2.1⟩, trivial, rfl⟩
  | link l => exact ⟨h, trivial, rfl⟩

theorem capParts_quiet {env : ParserEnv} (ps : List CaptionPart) (hne : ps ≠ []) (h : ∀ p ∈ ps, p.WellFormed env) :
    ps.flatMap CaptionPart.source ≠ [] ∧ Quiet (ps.flatMap CaptionPart.source) :=
  quiet_flatMap _ ps hne fun p hp => by
    obtain ⟨h1, h2, h3⟩ := capPart_inline (h p hp)
    rw [← h3]
    exact inline_quiet h1 h2

theorem capRuns_ok {env : ParserEnv} (c : List CaptionRun) (rest : List Chunk) (h : ∀ r ∈ c, r.parts ≠ [] ∧ ∀ p ∈ r.parts, p.WellFormed env)
    (hs : RunsSeparated (c.map CaptionRun.run)) (hr : ChunksOk rest)
    (hh : (chunksSource rest).head? ≠ some 39) : ChunksOk (c.map capRunChunk ++ rest) := by
  induction c with
  | nil => exact hr
  | cons r l ih =>
    have ih := ih (fun x hx => h x (by simp [hx])) (by
      cases l with
      | nil => trivial
      | cons r' l => exact hs.2)
    obtain ⟨h1, h2⟩ := capParts_quiet r.parts (h r (by simp)).1 (h r (by simp)).2
    rw [List.map_cons, List.cons_append]
    unfold capRunChunk
    cases hst : r.style with
    | none => exact ⟨h2, ih⟩
    | some e =>
      refine ⟨h1, h2, ?_, ih⟩
      cases l with
      | nil => exact hh
      | cons r' l =>
        have hn : r'.style = none := by
          have : r.style = none ∨ r'.style = none := hs.1
          rw [hst] at this
          simpa using this
        obtain ⟨x1, x2⟩ := capParts_quiet r'.parts (h r' (by simp)).1 (h r' (by simp)).2
        obtain ⟨c, u, e⟩ := List.exists_cons_of_ne_nil x1
        have := x2.head
        rw [e] at this
        simp only [List.map_cons, List.cons_append, chunksSource, List.flatMap_cons, hn, Chunk.source, e]
        simpa using this

theorem noteParts_quiet {env : ParserEnv} (ps : List NotePart) (hne : ps ≠ []) (h : ∀ p ∈ ps, p.WellFormed env) :
    ps.flatMap NotePart.source ≠ [] ∧ Quiet (ps.flatMap NotePart.source) :=
  quiet_flatMap _ ps hne fun p hp => by
    obtain ⟨h1, h2, h3⟩ := notePart_inline (h p hp)
    rw [← h3]
    exact inline_quiet h1 h2

theorem noteRuns_ok {env : ParserEnv} (c : NoteText) (rest : List Chunk) (h : ∀ r ∈ c, r.parts ≠ [] ∧ ∀ p ∈ r.parts, p.WellFormed env)
    (hs : RunsSeparated (c.map NoteRun.run)) (hr : ChunksOk rest)
    (hh : (chunksSource rest).head? ≠ some 39) : ChunksOk (c.map noteRunChunk ++ rest) := by
  induction c with
  | nil => exact hr
  | cons r l ih =>
    have ih := ih (fun x hx => h x (by simp [hx])) (by
      cases l with
      | nil => trivial
      | cons r' l => exact hs.2)
    obtain ⟨h1, h2⟩ := noteParts_quiet r.parts (h r (by simp)).1 (h r (by simp)).2
    rw [List.map_cons, List.cons_append]
    unfold noteRunChunk
    cases hst : r.style with
    | none => exact ⟨h2, ih⟩
    | some e =>
      refine ⟨h1, h2, ?_, ih⟩
      cases l with
      | nil => exact hh
      | cons r' l =>
        have hn : r'.style = none := by
          have : r.style = none ∨ r'.style = none := hs.1
          rw [hst] at this
          simpa using this
        obtain ⟨x1, x2⟩ := noteParts_quiet r'.parts (h r' (by simp)).1 (h r' (by simp)).2
        obtain ⟨c, u, e⟩ := List.exists_cons_of_ne_nil x1
        have := x2.head
        rw [e] at this
        simp only [List.map_cons, List.cons_append, chunksSource, List.flatMap_cons, hn, Chunk.source, e]
        simpa using this

theorem quiet_of_not_mem {t : Str} (h : (39 : Byte) ∉ t) : Quiet t :=
  ⟨no_pair_of_not_mem h, fun hh => h (List.mem_of_mem_head? hh), last_of_not_mem h⟩

theorem inlineChunks_ok {env : ParserEnv} {p : Inline} (h : p.WellFormed env) (rest : List Chunk) (hr : ChunksOk rest) :
    ChunksOk (inlineChunks p ++ rest) := by
  have plain : p.unstyled → ChunksOk (.plain p.source :: rest) := fun hu => by
    obtain ⟨_, h2, h3, h4⟩ := inline_quiet h hu
    exact ⟨⟨h3, h2, h4⟩, hr⟩
  cases p with
  | image p =>
    obtain ⟨space, name, options, caption⟩ := p
    cases caption with
    | none => exact plain (by intro c hc; cases hc)
    | some c =>
      have hc := h.caption c rfl
      have hok := picture_ok h
      have hend : ChunksOk ([Chunk.plain b!"]]"] ++ rest) := ⟨quiet_of_not_mem (by decide), hr⟩
      have hw := hok.words
      have hlast : ∀ t : Str, (b!"[[" ++ t ++ b!"|").getLast? ≠ some 39 := fun t => by
        rw [List.getLast?_append_of_ne_nil _ (by decide)]
        decide
      have hq : ¬ b!"''" <:+: b!"[[" ++ frontOf ⟨space, name, options, none⟩ ++ b!"|" :=
        no_pair_append (c := 39) (no_pair_append (by decide) (Or.inl (by decide)) (hw.pairs 39 (by decide))) (Or.inr (by decide)) (by decide)
      show ChunksOk (.plain (b!"[[" ++ frontOf ⟨space, name, options, none⟩ ++ b!"|") :: ((c.map capRunChunk ++ [.plain b!"]]"]) ++ rest))
      rw [List.append_assoc (c.map capRunChunk)]
      exact ⟨⟨hq, by simp, hlast _⟩, capRuns_ok c _ hc.runs hc.separated hend (by simp)⟩
  | ref r =>
    obtain ⟨number, attrs, space, kind⟩ := r
    cases kind with
    | mention => exact plain (by intro c hc; cases hc)
    | list _ => exact plain (by intro c hc; cases hc)
    | define c =>
      have hc := h.text c rfl
      have hend : ChunksOk ([Chunk.plain b!"</ref>"] ++ rest) := ⟨quiet_of_not_mem (by decide), hr⟩
      have hlast : (refFront attrs space).getLast? ≠ some 39 := by
        rw [refFront, List.getLast?_append_of_ne_nil _ (by decide)]
        decide
      have hsp : (39 : Byte) ∉ spaces space ++ b!">" := by
        rw [List.mem_append]
        rintro (hm | hm)
        · exact absurd (List.eq_of_mem_replicate hm) (by decide)
        · exact absurd hm (by decide)
      have hq : ¬ b!"''" <:+: refFront attrs space := by
        rw [refFront, List.append_assoc]
        exact no_pair_append (c := 39) (no_pair_append (by decide) (Or.inl (by decide)) (h.pairs 39 (by decide)))
          (Or.inr fun e => hsp (List.mem_of_mem_head? e)) (no_pair_of_not_mem hsp)
      show ChunksOk (.plain (refFront attrs space) :: ((c.map noteRunChunk ++ [.plain b!"</ref>"]) ++ rest))
      rw [List.append_assoc (c.map noteRunChunk)]
      exact ⟨⟨hq, by simp [refFront], hlast⟩, noteRuns_ok c _ hc.runs hc.separated hend (by simp)⟩
  | _ => exact plain trivial

theorem inlinesChunks_ok {env : ParserEnv} (ps : List Inline) (h : ∀ p ∈ ps, p.WellFormed env) (rest : List Chunk) (hr : ChunksOk rest) :
    ChunksOk (ps.flatMap inlineChunks ++ rest) := by
  induction ps with
  | nil => exact hr
  | cons p ps ih =>
    rw [List.flatMap_cons, List.append_assoc]
    exact inlineChunks_ok (h p (by simp)) _ (ih fun x hx => h x (by simp [hx]))

theorem runs_ok {env : ParserEnv} (l : RichLine) (rest : List Chunk) (h : ∀ r ∈ l, r.WellFormed env) (hs : RunsSeparated l) (hr : ChunksOk rest)
    (hh : (chunksSource rest).head? ≠ some 39) : ChunksOk (l.flatMap runChunks ++ rest) := by
  induction l with
  | nil => exact hr
  | cons r l ih =>
    have ih := ih (fun x hx => h x (by simp [hx])) (by
      cases l with
      | nil => trivial
      | cons r' l => exact hs.2)
    have hw := h r (by simp)
    rw [List.flatMap_cons, List.append_assoc]
    unfold runChunks
    cases hst : r.style with
    | none => exact inlinesChunks_ok r.parts hw.2.1 _ ih
    | some e =>
      obtain ⟨h1, h2⟩ := inlines_quiet r.parts hw.1 hw.2.1 (hw.2.2 (by simp [hst]))
      refine ⟨h1, h2, ?_, ih⟩
      cases l with
      | nil => exact hh
      | cons r' l =>
        have hn : r'.style = none := by
          have := hs.1
          rw [hst] at this
          simpa using this
        have hw' := h r' (by simp)
        show (chunksSource ((r' :: l).flatMap runChunks ++ rest)).head? ≠ some 39
        rw [List.flatMap_cons, List.append_assoc, chunksSource_append, runChunks_source]
        obtain ⟨p, ps, e⟩ := List.exists_cons_of_ne_nil hw'.1
        obtain ⟨x1, x2⟩ := inline_head (hw'.2.1 p (by simp [e]))
        obtain ⟨c, u, e'⟩ := List.exists_cons_of_ne_nil x1
        rw [e'] at x2
        simp only [Run.source, hn, e, List.flatMap_cons, e', List.cons_append]
        simpa using x2

theorem framed_quote {t : Str} (h : ∀ c ∈ t, c ∈ b!"*#;:= ") : (39 : Byte) ∉ t := fun hm => absurd (h _ hm) (by decide)

theorem head_append {t r : Str} (h : (39 : Byte) ∉ t) (hr : r.head? ≠ some 39) : (t ++ r).head? ≠ some 39 := by
  cases t with
  | nil => exact hr
  | cons c t =>
    intro e
    simp at e
    exact h (e ▸ by simp)

/-- What follows is not a text of the article. -/
def NextLiteral {α : Type} : List (Str ⊕ α) → Prop
  | [] => True
  | .inl [] :: ps => NextLiteral ps
  | .inl (_ :: _) :: _ => True
  | .inr _ :: _ => False

/-- There is something between the texts. -/
def PiecesApart {α : Type} : List (Str ⊕ α) → Prop
  | [] => True
  | .inl _ :: ps => PiecesApart ps
  | .inr _ :: ps => NextLiteral ps ∧ PiecesApart ps

def DLine.Apart {α : Type} : DLine α → Prop
  | .pieces ps => PiecesApart ps
  | _ => True

theorem nextLiteral_spaces {α : Type} (n : Nat) {ps : List (Str ⊕ α)} (h : NextLiteral ps) : NextLiteral (.inl (spaces n) :: ps) := by
  cases n with
  | zero => exact h
  | succ n => trivial

theorem cellPieces_apart {α : Type} (c : DocCell α) {ps : List (Str ⊕ α)} (h : PiecesApart ps) (hn : NextLiteral ps) :
    PiecesApart (cellPieces c ++ ps) := by
  unfold cellPieces
  cases c.text with
  | none => exact h
  | some x => exact ⟨nextLiteral_spaces _ hn, h⟩

theorem others_apart {α : Type} (heading : Bool) (cs : List (DocCell α)) :
    PiecesApart (cs.flatMap (otherPieces heading)) ∧ NextLiteral (cs.flatMap (otherPieces heading)) := by
  induction cs with
  | nil => exact ⟨trivial, trivial⟩
  | cons c cs ih => exact ⟨cellPieces_apart c ih.1 ih.2, trivial⟩

theorem tableDlines_apart {α : Type} (t : DocTable α) : ∀ l ∈ tableDlines t, l.Apart := by
  intro l hl
  unfold tableDlines at hl
  simp only [List.mem_cons, List.mem_append, List.mem_map, List.mem_flatMap, List.not_mem_nil, or_false] at hl
  rcases hl with rfl | ⟨c, -, rfl⟩ | ⟨r, -, hl⟩ | rfl
  · trivial
  · exact ⟨trivial, trivial⟩
  · unfold rowDlines at hl
    simp only [List.mem_append, List.mem_map, List.mem_flatMap, List.mem_singleton] at hl
    rcases hl with ⟨s, -, rfl⟩ | ⟨cs, -, rfl⟩
    · trivial
    · exact cellPieces_apart cs.first (others_apart _ _).1 (others_apart _ _).2
  · trivial

mutual
theorem tree_apart {α : Type} (pre : Str) : ∀ (t : TreeList (Nat × α)), ∀ l ∈ TreeList.dlines pre t, l.Apart
  | .mk _ items => by rw [TreeList.dlines]; exact items_apart pre items
theorem items_apart {α : Type} (pre : Str) : ∀ (items : List (TreeItem (Nat × α))), ∀ l ∈ treeItemsDlines pre items, l.Apart
  | [] => by rw [treeItemsDlines]; simp
  | .mk c x subs :: rest => by
    rw [treeItemsDlines]
    intro l hl
    simp only [List.mem_cons, List.mem_append] at hl
    rcases hl with rfl | hl | hl
    · trivial
    · exact trees_apart _ subs l hl
    · exact items_apart pre rest l hl
theorem trees_apart {α : Type} (pre : Str) : ∀ (subs : List (TreeList (Nat × α))), ∀ l ∈ treesDlines pre subs, l.Apart
  | [] => by rw [treesDlines]; simp
  | t :: rest => by
    rw [treesDlines]
    intro l hl
    rcases List.mem_append.mp hl with hl | hl
    · exact tree_apart pre t l hl
    · exact trees_apart pre rest l hl
end

theorem docLines_apart {α : Type} (d : List (Nat × Blk α)) : ∀ l ∈ docLines d, l.Apart := by
  intro l hl
  obtain ⟨b, -, hl⟩ := List.mem_flatMap.mp hl
  rcases List.mem_append.mp hl with hl | hl
  · rw [List.eq_of_mem_replicate hl]; trivial
  · generalize b.2 = b at hl
    cases b with
    | heading level before after x => rw [List.mem_singleton.mp hl]; trivial
    | element x => rw [List.mem_singleton.mp hl]; trivial
    | paragraph xs =>
      obtain ⟨x, -, rfl⟩ := List.mem_map.mp hl
      trivial
    | list t => exact tree_apart [] t l hl
    | table t => exact tableDlines_apart t l hl

theorem nextLiteral_head {ps : List (Str ⊕ RichLine)} {rest : List Chunk} (h : NextLiteral ps) (hq : ∀ s, .inl s ∈ ps → (39 : Byte) ∉ s)
    (hh : (chunksSource rest).head? ≠ some 39) : (chunksSource (ps.flatMap pieceChunks ++ rest)).head? ≠ some 39 := by
  induction ps with
  | nil => exact hh
  | cons p ps ih =>
    cases p with
    | inr x => exact h.elim
    | inl s =>
      cases s with
      | nil => exact ih h fun s hs => hq s (by simp [hs])
      | cons c s =>
        intro e
        have : c = 39 := Option.some.inj e
        exact hq (c :: s) (by simp) (by simp [this])

theorem lineChunks_ok {env : ParserEnv} (l : DLine RichLine) (rest : List Chunk) (hf : l.Framed) (ha : l.Apart) (h : l.All (RichLineOk env)) (hr : ChunksOk rest)
    (hh : (chunksSource rest).head? ≠ some 39) : ChunksOk (lineChunks l ++ rest) := by
  cases l with
  | blank => exact hr
  | one pre l post =>
    rw [lineChunks, List.cons_append, List.append_assoc]
    refine ⟨quiet_of_not_mem (framed_quote hf.1), ?_⟩
    refine runs_ok (env := env) l _ h.runs h.separated ⟨quiet_of_not_mem (framed_quote hf.2), hr⟩ ?_
    exact head_append (framed_quote hf.2) hh
  | pieces ps =>
    rw [lineChunks]
    have hq : ∀ s, .inl s ∈ ps → (39 : Byte) ∉ s := fun s hs => (hf s hs).not_mem (by decide)
    have ho : ∀ l, .inr l ∈ ps → RichLineOk env l := h
    replace ha : PiecesApart ps := ha
    clear hf h
    induction ps with
    | nil => exact hr
    | cons p ps ih =>
      rw [List.flatMap_cons, List.append_assoc]
      have hq' : ∀ s, .inl s ∈ ps → (39 : Byte) ∉ s := fun s hs => hq s (by simp [hs])
      cases p with
      | inl s => exact ⟨quiet_of_not_mem (hq s (by simp)), ih hq' (fun l hl => ho l (by simp [hl])) ha⟩
      | inr l =>
        have hl := ho l (by simp)
        exact runs_ok (env := env) l _ hl.runs hl.separated (ih hq' (fun l hl => ho l (by simp [hl])) ha.2) (nextLiteral_head ha.1 hq' hh)

theorem docChunks_ok {env : ParserEnv} (ls : List (DLine RichLine)) (hf : ∀ l ∈ ls, l.Framed) (ha : ∀ l ∈ ls, l.Apart)
    (h : ∀ l ∈ ls, l.All (RichLineOk env)) : ChunksOk (docChunks ls) := by
  induction ls with
  | nil => trivial
  | cons l ls ih =>
    cases ls with
    | nil =>
      have := lineChunks_ok l [] (hf l (by simp)) (ha l (by simp)) (h l (by simp)) trivial (by simp [chunksSource])
      simpa [docChunks] using this
    | cons l' ls =>
      rw [docChunks]
      refine lineChunks_ok l _ (hf l (by simp)) (ha l (by simp)) (h l (by simp)) ⟨quiet_of_not_mem (by decide), ih (fun x hx => hf x (by simp at hx ⊢; tauto))
        (fun x hx => ha x (by simp at hx ⊢; tauto)) (fun x hx => h x (by simp at hx ⊢; tauto))⟩ ?_
      simp [chunksSource, Chunk.source]

end Verif.Model
