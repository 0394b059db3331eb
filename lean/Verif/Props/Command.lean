import Verif.Lemmas.Wikipedia
import Verif.Spec.Command

/-! # C46: the arguments of external commands -/

namespace Verif.Props

open Verif.Go Verif.Model Verif.Spec Verif.Lemmas

/-- **C46** for paths without space: the external command is called with one argument per word of the configured
template, with the placeholders filled in. (Missing: paths with spaces, for which the claim is false, see
`C46_path_with_space_is_torn`.) -/
theorem C46_arguments_partial (template input output : Str) (hi : (0x20 : Byte) ∉ input) (ho : (0x20 : Byte) ∉ output)
    (env : WebEnv) (w : World) :
    (convertToPng input output template env w).2.events =
      w.events ++ [.command ((split template b!" ").map (filled input output)) b!"."] := by
  show w.events ++ _ = _
  unfold commandArgs commandLine inputPlaceholder outputPlaceholder
  rw [split_replaceAll (by simp) (by decide) ho, split_replaceAll (by simp) (by decide) hi, List.map_map]
  rfl

/-- **C46** for paths without space and without the text `{OUTPUT}`: a word `{INPUT}` or `{OUTPUT}` of the template
becomes exactly the input or output path, other words without placeholder stay as they are. -/
theorem C46_path_is_one_argument_partial (input output : Str) (hi : ¬ b!"{OUTPUT}" <:+: input) :
    filled input output b!"{INPUT}" = input ∧ filled input output b!"{OUTPUT}" = output ∧
    ∀ word, ¬ b!"{INPUT}" <:+: word → ¬ b!"{OUTPUT}" <:+: word → filled input output word = word := by
  have h : ∀ (p x : Str), p ≠ [] → replaceAll p p x = x := by
    intro p x hp
    have := replaceAll_of_prefix (s := []) (new := x) hp
    rw [List.append_nil] at this
    rw [this]
    exact List.append_nil x
  refine ⟨?_, ?_, ?_⟩
  · unfold filled
    rw [h _ _ (by simp), replaceAll_of_not_infix hi]
  · unfold filled
    rw [replaceAll_of_not_infix (s := b!"{OUTPUT}") (by decide), h _ _ (by simp)]
  · intro word h1 h2
    unfold filled
    rw [replaceAll_of_not_infix h1, replaceAll_of_not_infix h2]

/-- The processing of images in place: every occurrence of either placeholder is the image path. -/
theorem C46_resize_arguments_partial (template cacheDir image : Str) (hi : (0x20 : Byte) ∉ image) (env : WebEnv)
    (w : World) :
    (resizeAndCompressImage cacheDir image template env w).2.events =
      w.events ++ [.command ((split template b!" ").map (filled image image)) cacheDir] := by
  show w.events ++ _ = _
  unfold commandArgs commandLine inputPlaceholder outputPlaceholder
  rw [split_replaceAll (by simp) (by decide) hi, split_replaceAll (by simp) (by decide) hi, List.map_map]
  rfl

/-- The default command of the README. -/
example (env : WebEnv) (w : World) :
    (convertToPng b!"/c/a.svg" b!"/c/a.svg.png" b!"rsvg-convert -o {OUTPUT} {INPUT}" env w).2.events =
      w.events ++ [.command [b!"rsvg-convert", b!"-o", b!"/c/a.svg.png", b!"/c/a.svg"] b!"."] := by
  rw [C46_arguments_partial _ _ _ (by decide) (by decide)]
  congr 3

/-- **C46** fails for paths with a space (for example from the directory of the cache). -/
theorem C46_path_with_space_is_torn :
    commandArgs (commandLine b!"conv {INPUT} {OUTPUT}" b!"/my cache/a.svg" b!"/my cache/a.svg.png") =
      [b!"conv", b!"/my", b!"cache/a.svg", b!"/my", b!"cache/a.svg.png"] := by
  decide

/-- **C46** fails for input paths with the text `{OUTPUT}`. -/
theorem C46_placeholder_in_path :
    commandArgs (commandLine b!"conv {INPUT} {OUTPUT}" b!"/c/{OUTPUT}.svg" b!"/c/o.png") =
      [b!"conv", b!"/c//c/o.png.svg", b!"/c/o.png"] := by
  decide

end Verif.Props
