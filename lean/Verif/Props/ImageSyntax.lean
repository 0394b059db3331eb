import Verif.Lemmas.Galleries
import Verif.Props.PlainText
import Verif.Props.Links

/-!
# C60: the syntax of images, galleries and image maps
-/

namespace Verif.Props
open Verif.Go Verif.Model Verif.Spec Verif.Lemmas
open scoped List

/-- Each image of a text is replaced by a token for the image with the given file, size and caption, its file is to be
downloaded, and the text around it is unchanged; images of unwanted types disappear. (`rec` is the tokenizer for captions.) -/
theorem C60_images_partial (env : ParserEnv) (hu : CreatesNoSeparators env.upperFirst)
    (hF : env.lower b!"File" ∈ env.config.list .filePrefixes) (rec : Rec) (first : Str) (images : List (WikiImage × Str))
    (hf : LinkFree first) (h : ∀ x ∈ images, x.1.WellFormed env ∧ x.1.Tokenizable env rec ∧ LinkFree x.2)
    (fuel : Nat) (hfuel : images.length < fuel) :
    parseImages env rec fuel (first ++ imagesText images) = (do
      let r ← tokenizedImages env rec images
      pure (first ++ r)) :=
  imageLoop_images hu hF images h fuel hfuel first hf

theorem tokenize_ordinary (env : ParserEnv) {t : Str} (h : OrdinaryLine t) (fuel : Nat) (hf : t.length + 2 < fuel) :
    tokenizeContent env fuel t = pure t := by
  obtain ⟨f, rfl⟩ := Nat.exists_eq_add_of_le' (show 1 ≤ fuel by omega)
  have hp : parseParagraphs t = t := by
    rw [parseParagraphs, split_singleton_of_not_mem h.oneLine,
      paragraphLines_calm [t] (by simpa using ⟨h.notEmpty, not_tokenLine h.noInternal⟩)]
    rfl
  have hpass := tokenizePass_calm env (tokenizeContent env f) (ls := [t]) (by simp) (by simpa using OrdinaryLine.calm h) f (by simp [join]; omega)
  simp only [join] at hpass
  rw [tokenizeContent, hpass, pure_bind, hp, if_pos rfl]

theorem linkText_plain {c : Str} (h1 : (0x5B : Byte) ∉ c) (h2 : (0x5D : Byte) ∉ c) : ∃ d : LinkText, d.WellFormed ∧ d.text = c := by
  induction c with
  | nil => exact ⟨.nil, trivial, rfl⟩
  | cons b c ih =>
    obtain ⟨d, hd, e⟩ := ih (fun hm => h1 (by simp [hm])) (fun hm => h2 (by simp [hm]))
    exact ⟨.char b d, ⟨fun e => h1 (by simp [e]), fun e => h2 (by simp [e]), hd⟩, by rw [LinkText.text, e]⟩

/-- The same for the tokenizer itself and images without markup in their captions. -/
theorem C60_plain_images_partial (env : ParserEnv) (hu : CreatesNoSeparators env.upperFirst)
    (hF : env.lower b!"File" ∈ env.config.list .filePrefixes) (first : Str) (images : List (WikiImage × Str))
    (hf : LinkFree first) (h : ∀ x ∈ images, x.1.WellFormed env ∧ OrdinaryLine x.1.inner ∧
      (∀ c, x.1.caption = some c → OrdinaryLine c ∧ CaptionText env c ∧ 0x5D ∉ c) ∧ LinkFree x.2)
    (fuel : Nat) (hfuel : images.length < fuel) (hfuel' : ∀ x ∈ images, x.1.inner.length + 2 < fuel) :
    parseImages env (tokenizeContent env fuel) fuel (first ++ imagesText images) = (do
      let r ← tokenizedImages env pure images
      pure (first ++ r)) := by
  have hcap : ∀ x ∈ images, ∀ c, x.1.caption = some c → tokenizeContent env fuel c = pure c := by
    intro x hx c hc
    refine tokenize_ordinary env ((h x hx).2.2.1 c hc).1 fuel ?_
    have := hfuel' x hx
    have hl : c.length ≤ x.1.inner.length := by
      rw [WikiImage.inner, hc]
      simp
      omega
    omega
  have hin : ∀ x ∈ images, tokenizeContent env fuel x.1.inner = pure x.1.inner := fun x hx =>
    tokenize_ordinary env (h x hx).2.1 fuel (hfuel' x hx)
  have e : tokenizedImages env (tokenizeContent env fuel) images = tokenizedImages env pure images := by
    clear hfuel h hfuel' hin
    induction images with
    | nil => rfl
    | cons x rest ih =>
      obtain ⟨i, after⟩ := x
      have hc := hcap (i, after) (by simp)
      simp only at hc
      rw [tokenizedImages, tokenizedImages, ih (fun x hx => hcap x (by simp [hx]))]
      congr 1
      rw [tokenizedImage, tokenizedImage]
      cases hic : i.caption with
      | none => rfl
      | some c =>
        simp only
        rw [hc c hic]
  rw [← e]
  refine C60_images_partial env hu hF _ first images hf (fun x hx => ⟨(h x hx).1, ?_, (h x hx).2.2.2⟩) fuel hfuel
  rw [WikiImage.Tokenizable]
  cases hic : x.1.caption with
  | none => exact hin x hx
  | some c =>
    obtain ⟨hc1, hc2, hc3⟩ := (h x hx).2.2.1 c hic
    have hcc := hcap x hx c hic
    refine ⟨linkText_plain hc1.noBracket hc3, ?_, ?_⟩
    · rw [hcc, pure_bind, hin x hx]
      congr 1
      obtain ⟨⟨sp, nm, op, cp⟩, af⟩ := x
      cases hic
      rfl
    · intro s c' s' hr
      rw [hcc] at hr
      cases hr
      exact ⟨hc2, hcc⟩

/-! ### Links, galleries and image maps -/

theorem split_free (first : Str) (items : List Str) (hf : LinkFree first) (h : ∀ x ∈ items, LinkFree x) :
    split (first ++ items.flatMap fun x => b!"[[" ++ x) b!"[[" = first :: items := by
  induction items generalizing first with
  | nil =>
    rw [List.flatMap_nil, List.append_nil, split_of_not_infix (by simp)]
    intro hi; exact hf (hi.trans (List.prefix_append _ _).isInfix)
  | cons x items ih =>
    have e : first ++ (x :: items).flatMap (fun x => b!"[[" ++ x) = first ++ b!"[[" ++ (x ++ items.flatMap fun x => b!"[[" ++ x) := by simp
    rw [e, split_pair _ hf, ih x (h x (by simp)) fun y hy => h y (by simp [hy])]

/-- Images are no links to articles: they are left to the step that handles images. -/
theorem C60_images_are_no_links (env : ParserEnv) (rec : Rec) (first : Str) (images : List (WikiImage × Str)) (hf : LinkFree first)
    (h : ∀ x ∈ images, (0x3A : Byte) ∉ x.1.space ∧ env.lower x.1.space ∈ env.config.list .filePrefixes ∧ LinkFree x.1.space ∧
      LinkFree x.1.inner ∧ LinkFree x.2) :
    parseInternalLinks env rec (first ++ imagesText images) = pure (first ++ imagesText images) := by
  have e : ∀ images : List (WikiImage × Str), imagesText images =
      (images.map fun x => x.1.space ++ b!":" ++ x.1.inner ++ b!"]]" ++ x.2).flatMap fun x => b!"[[" ++ x := by
    intro images
    induction images with
    | nil => rfl
    | cons x rest ih =>
      obtain ⟨i, after⟩ := x
      rw [imagesText, ih, List.map_cons, List.flatMap_cons]
      simp [WikiImage.source]
  have hs : splitHead (first ++ imagesText images) internalSyntax.opening =
      (first, images.map fun x => x.1.space ++ b!":" ++ x.1.inner ++ b!"]]" ++ x.2) := by
    show (match split (first ++ imagesText images) b!"[[" with | [] => ([], []) | p :: ps => (p, ps)) = _
    rw [e, split_free _ _ hf]
    intro x hx
    obtain ⟨y, hy, rfl⟩ := List.mem_map.mp hx
    obtain ⟨-, -, h1, h2, h3⟩ := h y hy
    exact linkFree_append' (linkFree_append' (linkFree_append' (linkFree_append' h1 (by unfold LinkFree; decide)) h2) (by unfold LinkFree; decide)) h3
  have hseg : linkSegments env rec internalSyntax (images.map fun x => x.1.space ++ b!":" ++ x.1.inner ++ b!"]]" ++ x.2) =
      pure (images.map fun x => b!"[[" ++ (x.1.space ++ b!":" ++ x.1.inner ++ b!"]]" ++ x.2)) := by
    clear hs
    induction images with
    | nil => rfl
    | cons x rest ih =>
      obtain ⟨h1, h2, -⟩ := h x (by simp)
      have hfile : isFileLink env (x.1.space ++ b!":" ++ x.1.inner ++ b!"]]" ++ x.2) = true := by
        have hc : cut b!":" (x.1.space ++ b!":" ++ x.1.inner ++ b!"]]" ++ x.2) = some (x.1.space, x.1.inner ++ b!"]]" ++ x.2) := by
          have := cut_single (c := (0x3A : Byte)) (x.1.inner ++ b!"]]" ++ x.2) h1
          rw [← this]
          simp
        rw [isFileLink, hc]
        exact decide_eq_true h2
      rw [List.map_cons, linkSegments, linkSegment, hfile, if_pos rfl, pure_bind, ih fun x hx => h x (by simp [hx]), pure_bind]
      rfl
  rw [parseInternalLinks, parseLink]
  simp only [hs]
  rw [hseg, pure_bind, e, List.flatMap_map, List.flatMap_def]

theorem padding_noBreak {p : Str} (h : Padding p) : (0x0A : Byte) ∉ p := fun hm => by
  rcases h _ hm with h | h <;> exact absurd h (by decide)

theorem tag_noBreak {tag name : Str} (h : lowered tag = name) (hn : (0x0A : Byte) ∉ name) : (0x0A : Byte) ∉ tag := fun hm =>
  hn (h ▸ (List.mem_map_of_mem (f := lowerByte) hm))

/-- Galleries become images with frames in lines of their own, with the given captions; the lines outside of galleries are
unchanged. -/
theorem C60_galleries (env : ParserEnv) (parts : List GalleryPart) (hne : parts.flatMap GalleryPart.source ≠ []) (h : ∀ p ∈ parts, p.WellFormed) :
    parseGalleries env (join b!"\n" (parts.flatMap GalleryPart.source)) = (do
      let lines ← writtenGalleries env parts
      pure (join b!"\n" lines)) := by
  rw [parseGalleries, split_join_singleton hne, galleryLines_parts env parts h]
  intro l hl
  obtain ⟨p, hp, hl⟩ := List.mem_flatMap.mp hl
  have hw := h p hp
  cases p with
  | lines ls => exact (hw l hl).2.2
  | gallery g =>
    simp only [GalleryPart.source, Gallery.lines, List.cons_append, List.mem_cons, List.mem_append, List.mem_map, List.not_mem_nil, or_false] at hl
    rcases hl with rfl | ⟨e, he, rfl⟩ | rfl
    · obtain ⟨before, tag, attributes, after, hb, ha, htag, hat, ho⟩ := hw.opening
      rw [ho]
      simp [padding_noBreak hb, padding_noBreak ha, tag_noBreak htag (by decide), show (0x0A : Byte) ∉ attributes from fun hm => hat _ hm (by decide)]
    · obtain ⟨h1, h2, h3, -⟩ := hw.entries e he
      simp [padding_noBreak h1, padding_noBreak h2, h3.oneLine]
    · exact hw.closing.2

/-- An image of a gallery is written like any other image. -/
theorem C60_gallery_images (env : ParserEnv) (e : FileEntry) : writtenImage env e b!"|mini" =
    if UnwantedFile env e.name then pure [] else (do
      addImage (e.file env)
      pure (WikiImage.source ⟨e.space.getD b!"File", env.upperFirst (underscored (trimSpace e.name)), [.frame b!"mini" []], e.more⟩)) := by
  rw [writtenImage]
  split
  · rfl
  · congr 1
    funext _
    congr 1
    simp only [FileEntry.file, WikiImage.source, WikiImage.inner, List.flatMap_cons, List.flatMap_nil, ImageOption.source]
    cases e.more <;> simp

/-- Image maps become images with the given options; the lines with the areas are removed, and the lines outside of image
maps are unchanged. -/
theorem C60_image_maps (env : ParserEnv) (parts : List MapPart) (hne : parts.flatMap MapPart.source ≠ []) (h : ∀ p ∈ parts, p.WellFormed env) :
    parseImageMaps env (join b!"\n" (parts.flatMap MapPart.source)) = (do
      let lines ← writtenMaps env parts
      pure (join b!"\n" lines)) := by
  rw [parseImageMaps, split_join_singleton hne, imageMap_parts env parts h]
  intro l hl
  obtain ⟨p, hp, hl⟩ := List.mem_flatMap.mp hl
  have hw := h p hp
  cases p with
  | lines ls => exact (hw l hl).2.2
  | map m =>
    simp only [MapPart.source, ImageMap.lines, List.cons_append, List.mem_cons, List.mem_append, List.not_mem_nil, or_false] at hl
    rcases hl with rfl | rfl | hl | rfl
    · obtain ⟨tag, attributes, after, ha, htag, hat, ho⟩ := hw.opening
      rw [ho]
      simp [padding_noBreak ha, tag_noBreak htag (by decide), show (0x0A : Byte) ∉ attributes from fun hm => hat _ hm (by decide)]
    · exact hw.image.1.oneLine
    · exact (hw.areas l hl).2
    · exact tag_noBreak hw.closing (by decide)

/-! ### Examples -/

/-- Images in a text. -/
def exampleImages : List (WikiImage × Str) :=
  [(⟨b!"File", b!"a b.jpg", [.size (some 20) none], none⟩, b!" and "),
   (⟨b!"image", b!"c.svg", [.other b!"right", .frame b!"thumb" b!"nail", .size (some 120) (some 60)], some b!"A caption"⟩, b!" (end)")]

example : b!"See " ++ imagesText exampleImages =
    b!"See [[File:a b.jpg|20px]] and [[image:c.svg|right|thumbnail|120x60px|A caption]] (end)" := by decide +kernel

/-- What is known about an image. -/
structure Picture where
  key : Str
  block : Bool
  file : Str
  caption : Str
  sizeX : Int
  sizeY : Int
  deriving DecidableEq

/-- Text, images and files to download. -/
structure Pictures where
  text : Str
  images : List Picture
  files : List Str
  deriving DecidableEq

def pictureOf : Str × Token → Option Picture
  | (key, .image f c x y) => some ⟨key, true, f, c, x, y⟩
  | (key, .inlineImage f x y) => some ⟨key, false, f, [], x, y⟩
  | _ => none

def picturesOf (r : Option (Res (Str × TokState))) : Option Pictures :=
  match r with
  | some (.ok (t, s)) => some ⟨t, s.tokenMap.filterMap pictureOf, s.images⟩
  | _ => none

example : picturesOf (tokenizedImages exampleEnv pure exampleImages TokState.initial) =
    some ⟨b!"$$TOKEN_IMAGE_INLINE_0$$ and $$TOKEN_IMAGE_1$$ (end)", [⟨b!"$$TOKEN_IMAGE_1$$", true, b!"c.svg", b!"A caption", 120, 60⟩, ⟨b!"$$TOKEN_IMAGE_INLINE_0$$", false, b!"a_b.jpg", [], 20, -1⟩], [b!"File:a_b.jpg", b!"File:c.svg"]⟩ := by decide +kernel

theorem ordinary_of {t : Str} (h : t ≠ [] ∧ 0x0A ∉ t ∧ trimSpace t = t ∧ (∀ c ∈ t.take 1, c ∉ b!"*#;:") ∧ ¬ (b!"=" <+: t ∧ b!"=" <:+ t) ∧
    (∀ c ∈ b!"[{<", c ∉ t) ∧ ¬ b!"''" <:+: t ∧ ¬ b!"$$" <:+: t ∧ ¬ b!"__NOTOC__" <:+: t) : OrdinaryLine t := by
  obtain ⟨h1, h2, h3, h4, h5, h6, h7, h8, h9⟩ := h
  refine ⟨h1, h2, h3, ?_, h5, ?_, h6 _ (by decide), ?_, ?_, h7, h8, h9⟩
  · intro c hc
    refine h4 c ?_
    cases t with
    | nil => cases hc
    | cons x t => cases hc; simp
  · exact fun hp => h6 0x7B (by decide) (hp.subset (by decide))
  · exact fun hp => h6 0x7B (by decide) (hp.subset (by decide))
  · exact tagFree_of_no_lt (h6 _ (by decide))

/-- The hypotheses of **C60** hold for these images. -/
example : CreatesNoSeparators exampleEnv.upperFirst ∧ exampleEnv.lower b!"File" ∈ exampleEnv.config.list .filePrefixes ∧ LinkFree b!"See " ∧
    (∀ x ∈ exampleImages, x.1.WellFormed exampleEnv ∧ OrdinaryLine x.1.inner ∧
      (∀ c, x.1.caption = some c → OrdinaryLine c ∧ CaptionText exampleEnv c ∧ 0x5D ∉ c) ∧ LinkFree x.2) ∧
    (∀ x ∈ exampleImages, (0x3A : Byte) ∉ x.1.space ∧ exampleEnv.lower x.1.space ∈ exampleEnv.config.list .filePrefixes ∧ LinkFree x.1.space ∧
      LinkFree x.1.inner ∧ LinkFree x.2) := by
  refine ⟨fun s c _ h => h, by decide +kernel, by unfold LinkFree; decide, ?_, ?_⟩
  · intro x hx
    simp only [exampleImages, List.mem_cons, List.not_mem_nil, or_false] at hx
    rcases hx with rfl | rfl
    · refine ⟨⟨by decide, by decide +kernel, by unfold FreeText; decide +kernel, ?_, ?_⟩, ordinary_of (by decide +kernel), by simp, by unfold LinkFree; decide⟩
      · simp only [List.mem_cons, List.not_mem_nil, or_false, forall_eq, ImageOption.WellFormed]
        decide +kernel
      · simp [ImageOption.isOther]
    · refine ⟨⟨by decide, by decide +kernel, by unfold FreeText; decide +kernel, ?_, by simp⟩, ordinary_of (by decide +kernel), ?_, by unfold LinkFree; decide⟩
      · simp only [List.mem_cons, List.not_mem_nil, or_false, forall_eq, forall_eq_or_imp, ImageOption.WellFormed, FreeText]
        decide +kernel
      · intro c hc
        cases hc
        exact ⟨ordinary_of (by decide +kernel), by unfold CaptionText FreeText; decide +kernel, by decide⟩
  · intro x hx
    simp only [exampleImages, List.mem_cons, List.not_mem_nil, or_false] at hx
    rcases hx with rfl | rfl <;> (unfold LinkFree; decide +kernel)

/-- A gallery with two images. -/
def exampleGallery : List GalleryPart :=
  [.lines [b!"Text", []], .gallery ⟨b!"<Gallery mode=\"packed\"> ", [([], ⟨none, b!"a b.jpg", none⟩, []), (b!" ", ⟨some b!"Image", b!"c.png", some b!"two|words"⟩, b!"")], b!"</gallery>"⟩,
    .lines [b!"end"]]

example : join b!"\n" (exampleGallery.flatMap GalleryPart.source) = b!"Text

<Gallery mode=\"packed\"> 
a b.jpg
 Image:c.png|two|words
</gallery>
end" := by decide +kernel

example : picturesOf ((do let ls ← writtenGalleries exampleEnv exampleGallery; pure (join b!"\n" ls)) TokState.initial) = some ⟨b!"Text

[[File:a_b.jpg|mini]]
[[Image:c.png|mini|two|words]]
end", [], [b!"File:a_b.jpg", b!"Image:c.png"]⟩ := by decide +kernel

theorem entry_of {e : FileEntry} (h : (∀ s ∈ e.space.toList, ∀ c ∈ s, c ∉ b!":|") ∧ (trimSpace e.name ≠ [] ∧ ∀ c ∈ e.name, c ∉ b!":|") ∧
    trimSpace e.text = e.text ∧ 0x0A ∉ e.text ∧ ¬ b!"<" <+: e.text) : e.WellFormed :=
  ⟨fun s hs => h.1 s (by rw [hs]; simp), h.2.1, h.2.2.1, h.2.2.2.1, h.2.2.2.2⟩

example : exampleGallery.flatMap GalleryPart.source ≠ [] ∧ ∀ p ∈ exampleGallery, p.WellFormed := by
  refine ⟨by decide +kernel, ?_⟩
  intro p hp
  simp only [exampleGallery, List.mem_cons, List.not_mem_nil, or_false] at hp
  rcases hp with rfl | rfl | rfl
  · show ∀ l ∈ _, _
    decide +kernel
  · refine ⟨⟨[], b!"Gallery", b!" mode=\"packed\"", b!" ", by unfold Padding; decide, by unfold Padding; decide, by decide, by decide, by decide +kernel⟩, ?_, by decide +kernel⟩
    intro e he
    simp only [List.mem_cons, List.not_mem_nil, or_false] at he
    rcases he with rfl | rfl
    · exact ⟨by unfold Padding; decide, by unfold Padding; decide, entry_of (by decide +kernel), by decide +kernel, by decide +kernel⟩
    · exact ⟨by unfold Padding; decide, by unfold Padding; decide, entry_of (by decide +kernel), by decide +kernel, by decide +kernel⟩
  · show ∀ l ∈ _, _
    decide +kernel

/-- An image map. -/
def exampleMap : List MapPart :=
  [.lines [b!"Text"], .map ⟨b!"<imagemap>", ⟨some b!"File", b!"a b.jpg", some b!"thumb|A map"⟩, [b!"", b!"rect 1 2 3 4 [[X]]"], b!"</imagemap>"⟩, .lines [b!"end"]]

example : picturesOf ((do let ls ← writtenMaps exampleEnv exampleMap; pure (join b!"\n" ls)) TokState.initial) = some ⟨b!"Text
[[File:a_b.jpg|thumb|A map]]
end", [], [b!"File:a_b.jpg"]⟩ := by decide +kernel

example : exampleMap.flatMap MapPart.source ≠ [] ∧ ∀ p ∈ exampleMap, p.WellFormed exampleEnv := by
  refine ⟨by decide +kernel, ?_⟩
  intro p hp
  simp only [exampleMap, List.mem_cons, List.not_mem_nil, or_false] at hp
  rcases hp with rfl | rfl | rfl
  · show ∀ l ∈ _, _
    decide +kernel
  · exact ⟨⟨b!"imagemap", [], [], by unfold Padding; decide, by decide, by decide, by decide⟩, ⟨entry_of (by decide +kernel), by decide +kernel⟩, by decide +kernel, by decide +kernel⟩
  · show ∀ l ∈ _, _
    decide +kernel

/-! ### What is wrong -/

/-- **C60** is false for captions that begin like the name of a frame: the caption is lost. -/
theorem C60_caption_like_frame_is_lost :
    picturesOf (tokenizeContent exampleEnv 60 b!"[[File:a.jpg|thumb|minister of state]]" TokState.initial) =
      some ⟨b!"$$TOKEN_IMAGE_0$$", [⟨b!"$$TOKEN_IMAGE_0$$", true, b!"a.jpg", [], -1, -1⟩], [b!"File:a.jpg"]⟩ := by decide +kernel

/-- … and for captions that end like a size: the caption is lost, and so is the size. -/
theorem C60_caption_like_size_is_lost :
    picturesOf (tokenizeContent exampleEnv 60 b!"[[File:a.jpg|thumb|200px|lines of 5px]]" TokState.initial) =
      some ⟨b!"$$TOKEN_IMAGE_0$$", [⟨b!"$$TOKEN_IMAGE_0$$", true, b!"a.jpg", [], -1, -1⟩], [b!"File:a.jpg"]⟩ := by decide +kernel

/-- With the default configuration, which ignores no options, an option at the end is shown as caption. -/
theorem C60_option_becomes_caption :
    picturesOf (tokenizeContent exampleEnv 60 b!"[[File:a.jpg|thumb|right]]" TokState.initial) =
      some ⟨b!"$$TOKEN_IMAGE_0$$", [⟨b!"$$TOKEN_IMAGE_0$$", true, b!"a.jpg", b!"right", -1, -1⟩], [b!"File:a.jpg"]⟩ := by decide +kernel

/-- An image of a gallery has no frame, and its caption is lost, if there is a word like the name of a frame in its line. -/
theorem C60_gallery_caption_is_lost :
    picturesOf (tokenizeContent exampleEnv 100 b!"<gallery>\na.jpg|Thumbelina\n</gallery>" TokState.initial) =
      some ⟨b!"$$TOKEN_IMAGE_INLINE_0$$", [⟨b!"$$TOKEN_IMAGE_INLINE_0$$", false, b!"a.jpg", [], -1, -1⟩], [b!"File:a.jpg", b!"File:a.jpg"]⟩ := by
  decide +kernel

/-- The program crashes if an article ends with the tag of an image map. -/
theorem C60_image_map_at_end_crashes : tokenizeContent exampleEnv 60 b!"<imagemap>" TokState.initial = some .panic := by
  rfl

/-- The program crashes if the type of the image of an image map is not wanted. -/
theorem C60_unwanted_image_map_crashes : tokenizeContent exampleEnv 60 b!"<imagemap>\nFile:a.mp3\n</imagemap>" TokState.initial = some .panic := by
  rfl

/-- If the configuration has prefixes of files in another language only, all images disappear. -/
theorem C60_images_need_english_prefix (env : ParserEnv) (hF : env.lower b!"File" ∉ env.config.list .filePrefixes) (rec : Rec) (name : Str) :
    imageKey env rec (b!"File:" ++ name) = pure [] := by
  have hs : (splitN b!":" 2 (b!"File:" ++ name)).headD [] = b!"File" := by
    have := cut_single (c := (0x3A : Byte)) (a := b!"File") name (by decide)
    have e : b!"File:" ++ name = b!"File" ++ 0x3A :: name := by simp
    rw [splitN, e, this]
    rfl
  rw [imageKey, if_pos (.inr (by rw [hs]; exact hF))]

end Verif.Props
