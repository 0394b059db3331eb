import Verif.Props.Addresses
import Verif.Props.Images

/-!
# C89: paths of images
-/

namespace Verif.Props
open Verif.Go Verif.Model Verif.Spec
open scoped List

theorem percentByte_chars : ∀ c : Byte, ∀ x ∈ percentByte c, x ∉ b!"\"&<" := by
  intro c x hx
  have key : ∀ n < 16, hexDigit n ∉ b!"\"&<" := by decide
  have := c.toNat_lt
  simp only [percentByte, List.mem_cons, List.not_mem_nil, or_false] at hx
  rcases hx with rfl | rfl | rfl
  · decide
  · exact key _ (by omega)
  · exact key _ (by omega)

theorem queryEscape_chars (s : Str) : ∀ c ∈ queryEscape s, c ∉ b!"\"&<" := by
  intro c hc
  obtain ⟨d, -, hd⟩ := List.mem_flatMap.mp hc
  split at hd
  · next hu =>
    obtain rfl : c = d := by simpa using hd
    intro hm
    revert hu
    simp only [List.mem_cons, List.not_mem_nil, or_false] at hm
    rcases hm with rfl | rfl | rfl <;> decide
  · split at hd
    · obtain rfl : c = 0x2B := by simpa using hd
      decide
    · exact percentByte_chars d c hd

theorem escapePathComponents_chars (path : Str) : ∀ c ∈ escapePathComponents path, c ∉ b!"\"&<" := by
  have key : ∀ l : List Str, (∀ e ∈ l, ∀ c ∈ e, c ∉ b!"\"&<") → ∀ c ∈ join b!"/" l, c ∉ b!"\"&<" := by
    intro l
    induction l with
    | nil => intro _ c hc; cases hc
    | cons e l ih =>
      intro h c hc
      cases l with
      | nil => exact h e (by simp) c (by simpa [join] using hc)
      | cons e' l =>
        rw [join] at hc
        rcases List.mem_append.mp hc with hc | hc
        · rcases List.mem_append.mp hc with hc | hc
          · exact h e (by simp) c hc
          · obtain rfl : c = 0x2F := by simpa using hc
            decide
        · exact ih (fun x hx => h x (by simp [hx])) c hc
  refine key _ fun e he => ?_
  obtain ⟨s, -, rfl⟩ := List.mem_map.mp he
  exact queryEscape_chars s

theorem urlDecode_dot (s : Str) : urlDecode false (b!"./" ++ s) = (urlDecode false s).map (b!"./" ++ ·) := by
  have step : ∀ (c : Byte) (t : Str), c ≠ 0x25 → urlDecode false (c :: t) = (urlDecode false t).map (c :: ·) := by
    intro c t hc
    rw [urlDecode.eq_def]
    split
    · next h => cases h
    · next h => exact absurd (List.cons.inj h).1 hc
    · next h => exact absurd (List.cons.inj h).1 hc
    · next h =>
      obtain ⟨rfl, rfl⟩ := List.cons.inj h
      cases urlDecode false t <;> simp
  show urlDecode false (0x2E :: 0x2F :: s) = _
  rw [step _ _ (by decide), step _ _ (by decide), Option.map_map]
  rfl

/-- The HTML of an image leads to this path, whatever characters it has, except for spaces. -/
theorem showsFile_escaped (tag : Str) (ht : tag ∈ imageTags) (path rest : Str) (hs : (0x20 : Byte) ∉ path) :
    ShowsFile (tag ++ (b!"./" ++ escapePathComponents path) ++ b!"\"" ++ rest) path := by
  refine ⟨tag, ht, _, _, rest, rfl, attributeValue_plain fun c hc => ?_, ?_⟩
  · rcases List.mem_append.mp hc with hc | hc
    · have key : ∀ c ∈ b!"./", c ∉ b!"\"&<" := by decide
      exact key c hc
    · exact escapePathComponents_chars path c hc
  · rw [urlDecode_dot, C44_decode_escaped_path_partial path hs]
    rfl

/-- **C89**: a reader of the page that has the folder of the cache as current folder finds the file of each image, whatever characters are
in its name. Names with spaces are excluded, the parser replaces them. -/
theorem C89_images_lead_to_their_files (env : HtmlEnv) (ex : Str → ExpM Str) (filename : Str) (hn : filename ∉ [b!"", b!".", b!".."])
    (hs : (0x20 : Byte) ∉ filename) (token : Token) (ht : ImageToken filename token) (out : Str)
    (h : expandToken env ex token = some (.ok out)) : ShowsFile out (filenameToImagePath env.conf filename) := by
  have hp := C44_image_path_has_no_space env.conf filename hn hs
  cases ht with
  | inline x y =>
    have h := Res.ok.inj (Option.some.inj h)
    rw [← h]
    have := showsFile_escaped b!"<img alt=\"image\" class=\"inline\" src=\"" (by decide) _ (b!" " ++ expandSizeTemplate x y ++ b!">") hp
    simpa [imageSource] using this
  | figure caption x y =>
    rw [expandToken] at h
    cases hc : ex caption with
    | none => rw [hc] at h; cases h
    | some r =>
      rw [hc] at h
      cases r with
      | ok c =>
        have h := Res.ok.inj (Option.some.inj h)
        rw [← h]
        have := showsFile_escaped b!"<div class=\"figure\">\n<img alt=\"image\" src=\"" (by decide) _ (b!" " ++ expandSizeTemplate x y ++
          b!">\n<div class=\"caption\">\n" ++ c ++ b!"\n</div>\n</div>") hp
        simpa [imageSource] using this
      | err => cases h
      | panic => cases h
      | fatal => cases h

/-- **C89** for all images that the parser has found in any article. -/
theorem C89_images_of_articles_lead_to_their_files (env : ParserEnv) (hu : CreatesNoSeparators env.upperFirst) (templates : TemplateEnv)
    (iterate : Nat → List (Str × Str) → List (Str × Str)) (fuel : Nat) (content text : Str) (s : TokState)
    (h : tokenizeArticle env templates iterate fuel content = some (.ok (text, s))) (key : Str) (token : Token) (filename : Str)
    (hk : (key, token) ∈ s.tokenMap) (hp : pictureFile token = some filename) (hn : filename ∉ [b!"", b!".", b!".."])
    (html : HtmlEnv) (ex : Str → ExpM Str) (out : Str) (ho : expandToken html ex token = some (.ok out)) :
    ShowsFile out (filenameToImagePath html.conf filename) := by
  have hs := (C58_shown_images_are_requested env hu templates iterate fuel content text s h key token filename hk hp).2
  refine C89_images_lead_to_their_files html ex filename hn hs token ?_ out ho
  cases token with
  | image f c x y =>
    obtain rfl : f = filename := Option.some.inj hp
    exact .figure c x y
  | inlineImage f x y =>
    obtain rfl : f = filename := Option.some.inj hp
    exact .inline x y
  | _ => cases hp

/-- **C89**: the picture of a formula is found as well, whatever its path is. -/
theorem C89_formulas_lead_to_their_files (env : HtmlEnv) (ex : Str → ExpM Str) (formula path width height style out : Str)
    (hm : env.math formula = .ok (path, width, height, style)) (hs : (0x20 : Byte) ∉ path)
    (h : expandToken env ex (.math formula) = some (.ok out)) : ShowsFile out path := by
  rw [expandToken, hm] at h
  have h := Res.ok.inj (Option.some.inj h)
  rw [← h]
  have := showsFile_escaped b!"<img alt=\"image\" src=\"" (by decide) path (b!" style=\"width: " ++ width ++
        b!"; height: " ++ height ++ b!"; " ++ style ++ b!"\">") hs
  simpa using this

/-- A name with all the characters in question. -/
example (env : HtmlEnv) (ex : Str → ExpM Str) (x y : Int) : ∃ out, expandToken env ex (.inlineImage b!"AT&T_\"<1>\".png" x y) = some (.ok out) ∧
    ShowsFile out (filenameToImagePath env.conf b!"AT&T_\"<1>\".png") :=
  ⟨_, rfl, C89_images_lead_to_their_files env ex _ (by decide) (by decide) _ (.inline x y) _ rfl⟩

/-- Such an image in an article. -/
example : (match tokenizeArticle tokenizerEnv exampleTemplates (fun _ l => l) 100 b!"A [[File:AT&T \"1\".png|20px]] b" with
      | some (.ok (_, s)) => s.tokenMap.filterMap fun x => pictureFile x.2
      | _ => []) = [b!"AT&T_\"1\".png"] := by
  decide +kernel

end Verif.Props
