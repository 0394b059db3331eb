import Verif.Lemmas.Svg

/-!
# Sizes of SVG files (C64)
-/

namespace Verif.Props
open Verif.Go Verif.Model Verif.Spec Verif.Lemmas
open scoped List

theorem relative_iff (s : Str) : hasSuffix s b!"%" = true ↔ Relative s := by
  rw [hasSuffix_iff, Relative]
  constructor
  · rintro ⟨u, rfl⟩
    simp
  · intro e
    obtain ⟨u, rfl⟩ := List.getLast?_eq_some_iff.mp e
    exact List.suffix_append _ _

/-- Unless the width is absolute and the height is relative, the size is replaced. -/
theorem svg_size_replaced (decode : Str → Option SvgAttributes) (f : SvgFile) (hf : f.Plain)
    (width height : Str) (hd : DecodesSize decode f width height) (hr : Relative width ∨ ¬ Relative height)
    (x y w h box : Str) (hb : ViewBox x y w h box) (hm : (b!"viewBox", box) ∈ f.attributes) :
    makeSvgSizeAbsolute decode f.source = some (((f.set b!"width" (w ++ b!"pt")).set b!"height" (h ++ b!"pt")).source) := by
  obtain ⟨style, hd3⟩ := hd.decodes
  obtain ⟨i, a, r, h1, h2⟩ := viewBox_found hf hm
  have hq := viewBox_parts hb 0x22 (hf.values _ hm).1
  have hpt : ∀ {v : Str}, (0x22 : Byte) ∉ v → (0x22 : Byte) ∉ v ++ b!"pt" ∧ (v ++ b!"pt").getLast? ≠ some 0x3D := by
    intro v hv
    refine ⟨by simp [hv], ?_⟩
    rw [List.getLast?_append_of_ne_nil _ (by simp)]
    decide
  have hcond : (!hasSuffix width b!"%" && hasSuffix height b!"%") = false := by
    rcases hr with hr | hr
    · rw [(relative_iff width).mpr hr]
      rfl
    · rw [← relative_iff, Bool.not_eq_true] at hr
      rw [hr, Bool.and_false]
  have e1 := replace_attribute hf (w ++ b!"pt") (by simp) hd.hasWidth
  have hh : (b!"height", height) ∈ (f.set b!"width" (w ++ b!"pt")).attributes :=
    List.mem_map.mpr ⟨_, hd.hasHeight, if_neg (by simp)⟩
  have e2 := replace_attribute (set_plain hf b!"width" (hpt hq.1)) (h ++ b!"pt") (by simp) hh
  unfold makeSvgSizeAbsolute
  rw [hd3]
  simp only
  rw [hcond, if_neg (by simp)]
  unfold replaceSvgSize
  rw [h1]
  simp only
  rw [h2]
  simp only
  rw [viewBox_values hb]
  simp only [List.append_assoc] at e1 e2 ⊢
  simp only [List.cons_append, List.nil_append] at e1 e2 ⊢
  rw [e1, e2]

/-- **C64**, relative sizes: a width in percent is replaced, together with the height, by the size of the `viewBox`, and nothing else
of the file is changed. -/
theorem C64_size_is_the_one_of_the_view_box_partial (decode : Str → Option SvgAttributes) (f : SvgFile) (hf : f.Plain)
    (width height : Str) (hd : DecodesSize decode f width height) (hr : Relative width)
    (x y w h box : Str) (hb : ViewBox x y w h box) (hm : (b!"viewBox", box) ∈ f.attributes) :
    makeSvgSizeAbsolute decode f.source = some (((f.set b!"width" (w ++ b!"pt")).set b!"height" (h ++ b!"pt")).source) :=
  svg_size_replaced decode f hf width height hd (Or.inl hr) x y w h box hb hm

/-- **C64** is false for absolute sizes: they are replaced as well. -/
theorem C64_absolute_sizes_are_replaced (decode : Str → Option SvgAttributes) (f : SvgFile) (hf : f.Plain)
    (width height : Str) (hd : DecodesSize decode f width height) (_ : ¬ Relative width) (hr : ¬ Relative height)
    (x y w h box : Str) (hb : ViewBox x y w h box) (hm : (b!"viewBox", box) ∈ f.attributes) :
    makeSvgSizeAbsolute decode f.source = some (((f.set b!"width" (w ++ b!"pt")).set b!"height" (h ++ b!"pt")).source) :=
  svg_size_replaced decode f hf width height hd (Or.inr hr) x y w h box hb hm

/-- **C64** is false for a relative height with an absolute width: nothing is written, the height stays relative. -/
theorem C64_relative_height_stays (decode : Str → Option SvgAttributes) (f : SvgFile)
    (width height : Str) (hd : DecodesSize decode f width height) (hw : ¬ Relative width) (hr : Relative height) :
    makeSvgSizeAbsolute decode f.source = none := by
  obtain ⟨style, hd3⟩ := hd.decodes
  unfold makeSvgSizeAbsolute
  rw [hd3]
  simp only
  rw [if_pos]
  rw [← relative_iff] at hw hr
  rw [hr, Bool.not_eq_true] at *
  simp [hw]

/-- **C64**, files without `viewBox`: their content does not change. -/
theorem C64_no_view_box_no_change (decode : Str → Option SvgAttributes) (content new : Str) (h : ¬ b!"viewBox=\"" <:+: content)
    (hn : makeSvgSizeAbsolute decode content = some new) : new = content := by
  unfold makeSvgSizeAbsolute replaceSvgSize at hn
  rw [indexOf_none h] at hn
  split at hn
  · cases hn
  · split at hn
    · cases hn
    · simpa using hn.symm

/-- **C64**, entities: before the file is decoded, exactly the references to namespaces (`&ns_svg;`) are removed, which the decoder
cannot handle. -/
theorem C64_only_namespaces_are_removed (texts : List (Str × Str)) (last : Str)
    (h : ∀ p ∈ texts, ¬ b!"&ns" <:+: p.1 ∧ (0x3B : Byte) ∉ p.2 ∧ (0x0A : Byte) ∉ p.2) (hl : ¬ b!"&ns" <:+: last) :
    removeNamespaces (texts.flatMap (fun p => p.1 ++ b!"&ns" ++ p.2 ++ b!";") ++ last) 0 = texts.flatMap (·.1) ++ last := by
  have hskip : ∀ (t rest : Str), ¬ b!"&ns" <:+: t → (∀ c, rest.head? = some c → c ∉ b!"ns") →
      removeNamespaces (t ++ rest) 0 = t ++ removeNamespaces rest 0 := by
    intro t rest ht hrest
    induction t with
    | nil => rfl
    | cons c t ih =>
      have hm : matchNamespace (c :: (t ++ rest)) = none := by
        unfold matchNamespace
        rw [if_neg]
        rw [hasPrefix_iff]
        intro hp
        rcases List.prefix_or_prefix_of_prefix hp (List.prefix_append (c :: t) rest) with hp' | hp'
        · exact ht hp'.isInfix
        · obtain ⟨u, hu⟩ := hp'
          obtain ⟨v, hv⟩ := hp
          rw [← hu, List.append_assoc, ← List.cons_append] at hv
          have hv := List.append_cancel_left hv
          cases u with
          | nil => exact ht (by rw [← hu]; simp)
          | cons d u =>
            have := hrest d (by rw [← hv]; rfl)
            cases t with
            | nil => simp at hu; simp [hu] at this
            | cons e t => cases t with
              | nil => simp at hu; simp [hu] at this
              | cons g t => simp at hu
      rw [List.cons_append, removeNamespaces, hm]
      simp only [List.cons_append]
      rw [ih fun hi => ht (hi.trans (List.suffix_cons _ _).isInfix)]
  induction texts with
  | nil => simpa [removeNamespaces] using hskip last [] hl (by simp)
  | cons p texts ih =>
    obtain ⟨h1, h2, h3⟩ := h p (by simp)
    have ih := ih fun q hq => h q (by simp [hq])
    rw [List.flatMap_cons, List.flatMap_cons]
    simp only [List.append_assoc] at ih ⊢
    rw [hskip p.1 _ h1 (by simp)]
    congr 1
    generalize texts.flatMap (fun p => p.1 ++ (b!"&ns" ++ (p.2 ++ b!";"))) ++ last = rest at ih
    have hm : matchNamespace (0x26 :: (b!"ns" ++ (p.2 ++ (b!";" ++ rest)))) = some (p.2.length + 4) := by
      unfold matchNamespace
      rw [if_pos (by rw [hasPrefix_iff]; exact ⟨p.2 ++ (b!";" ++ rest), rfl⟩)]
      show (match cut b!";" (p.2 ++ 0x3B :: rest) with | none => none | some (name, _) => if 0x0A ∈ name then none else some (name.length + 4)) = _
      rw [cut_single _ h2]
      simp [h3]
    show removeNamespaces (0x26 :: (b!"ns" ++ (p.2 ++ (b!";" ++ rest)))) 0 = _
    rw [removeNamespaces, hm]
    simp only
    rw [removeNamespaces_skip]
    have : (b!"ns" ++ (p.2 ++ (b!";" ++ rest))).drop (p.2.length + 4 - 1) = rest := by
      have e : b!"ns" ++ (p.2 ++ (b!";" ++ rest)) = (b!"ns" ++ p.2 ++ b!";") ++ rest := by simp
      rw [e]
      exact List.drop_left' (by simp)
    rw [this, ih]

/-! ### Examples -/

/-- A file with a namespace that the decoder cannot handle. -/
def exampleSvg (width height : Str) : SvgFile where
  before := b!"<?xml version=\"1.0\"?>\n<svg"
  attributes := [(b!"xmlns", b!"&ns_svg;"), (b!"width", width), (b!"viewBox", b!"0 0 123 234"), (b!"height", height)]
  rest := b!">\n<rect width=\"100%\" height=\"100%\" />\n</svg>"

example : (exampleSvg b!"50%" b!"100%").source =
    b!"<?xml version=\"1.0\"?>\n<svg xmlns=\"&ns_svg;\" width=\"50%\" viewBox=\"0 0 123 234\" height=\"100%\">\n<rect width=\"100%\" height=\"100%\" />\n</svg>" ∧
    (((exampleSvg b!"50%" b!"100%").set b!"width" b!"123pt").set b!"height" b!"234pt").source =
    b!"<?xml version=\"1.0\"?>\n<svg xmlns=\"&ns_svg;\" width=\"123pt\" viewBox=\"0 0 123 234\" height=\"234pt\">\n<rect width=\"100%\" height=\"100%\" />\n</svg>" := by
  decide +kernel

/-- The decoder for the examples reads a file without the reference to the namespace. -/
def exampleDecode (width height : Str) (content : Str) : Option SvgAttributes :=
  if content = ((exampleSvg width height).set b!"xmlns" []).source then some ⟨width, height, []⟩ else none

/-- The hypotheses of **C64** hold for the file above with a relative size, with an absolute size, and with a relative height only. -/
example : ∀ s ∈ [(b!"50%", b!"100%"), (b!"10mm", b!"20mm"), (b!"10mm", b!"20%")], (exampleSvg s.1 s.2).Plain ∧
    DecodesSize (exampleDecode s.1 s.2) (exampleSvg s.1 s.2) s.1 s.2 ∧
    (b!"viewBox", b!"0 0 123 234") ∈ (exampleSvg s.1 s.2).attributes := by
  intro s hs
  refine ⟨⟨by simp [exampleSvg], ?_, ?_, by simp only [exampleSvg]; decide +kernel⟩, ⟨by simp [exampleSvg], by simp [exampleSvg], [], ?_⟩, by simp [exampleSvg]⟩
  · have hn : ∀ m ∈ [b!"xmlns", b!"width", b!"viewBox", b!"height"],
        (0x22 : Byte) ∉ m ∧ ∀ n ∈ [b!"width", b!"height", b!"viewBox"], n <:+ m → m = n := by decide +kernel
    intro a ha
    refine hn a.1 ?_
    simp only [exampleSvg, List.mem_cons, List.not_mem_nil, or_false] at ha
    rcases ha with rfl | rfl | rfl | rfl <;> simp
  · have hv : ∀ s ∈ [(b!"50%", b!"100%"), (b!"10mm", b!"20mm"), (b!"10mm", b!"20%")],
        ((0x22 : Byte) ∉ s.1 ∧ s.1.getLast? ≠ some 0x3D) ∧ ((0x22 : Byte) ∉ s.2 ∧ s.2.getLast? ≠ some 0x3D) := by decide
    simp only [exampleSvg, List.mem_cons, List.not_mem_nil, or_false, forall_eq_or_imp, forall_eq]
    exact ⟨by decide, (hv s hs).1, by decide, (hv s hs).2⟩
  · have hv : ∀ s ∈ [(b!"50%", b!"100%"), (b!"10mm", b!"20mm"), (b!"10mm", b!"20%")],
        removeNamespaces (exampleSvg s.1 s.2).source 0 = ((exampleSvg s.1 s.2).set b!"xmlns" []).source := by decide +kernel
    unfold parseSvgAttributes exampleDecode
    rw [hv s hs, if_pos rfl]

example : ViewBox b!"0" b!"0" b!"123" b!"234" b!"0 0 123 234" := .spaces (by decide)

/-- **C64** is false if the name of another attribute in front of the width ends with `width` and the values agree: the other
attribute is changed. -/
theorem C64_other_attribute_is_replaced (decode : Str → Option SvgAttributes)
    (h : ∀ s, decode s = some ⟨b!"100%", b!"100%", b!""⟩) :
    makeSvgSizeAbsolute decode b!"<svg stroke-width=\"100%\" width=\"100%\" height=\"100%\" viewBox=\"0 0 1 2\">" =
      some b!"<svg stroke-width=\"1pt\" width=\"100%\" height=\"2pt\" viewBox=\"0 0 1 2\">" := by
  rw [makeSvgSizeAbsolute, parseSvgAttributes, h]
  decide +kernel

/-- **C64** is false for a comma with a space: the new size begins with a space. -/
theorem C64_comma_with_space (decode : Str → Option SvgAttributes) (h : ∀ s, decode s = some ⟨b!"100%", b!"100%", b!""⟩) :
    makeSvgSizeAbsolute decode b!"<svg width=\"100%\" height=\"100%\" viewBox=\"0, 0, 1, 2\">" =
      some b!"<svg width=\" 1pt\" height=\" 2pt\" viewBox=\"0, 0, 1, 2\">" := by
  rw [makeSvgSizeAbsolute, parseSvgAttributes, h]
  decide +kernel

end Verif.Props
