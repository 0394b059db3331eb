import Verif.Lemmas.Digest
import Verif.Props.CachePath
import Verif.Props.Sanitize
import Verif.Props.Offline

/-!
# C79: Names of files and addresses from sums
-/

namespace Verif.Props
open Verif.Go Verif.Model Verif.Spec Verif.Lemmas

/-- The sums of the configuration are those of `crypto/sha1` and `crypto/md5`, as in the program. -/
structure RealSums (c : WikiConf) : Prop where
  sha1 : c.sha1hex = Go.sha1hex
  md5 : c.md5hex = Go.md5hex

/-- **C79** (digits) A SHA-1 sum is written as 40 hexadecimal digits and an MD5 sum as 32, whatever the text is. -/
theorem C79_sums_are_digits (c : WikiConf) (hs : RealSums c) (s : Str) :
    (c.sha1hex s).length = 40 ∧ (∀ d ∈ c.sha1hex s, d ∈ b!"0123456789abcdef") ∧
    (c.md5hex s).length = 32 ∧ (∀ d ∈ c.md5hex s, d ∈ b!"0123456789abcdef") := by
  rw [hs.sha1, hs.md5]
  exact ⟨sha1hex_length s, fun d h => hexEncode_mem h, md5hex_length s, fun d h => hexEncode_mem h⟩

/-- So the sums of the program are usable as names of files and in addresses, as C77 and C78 demand. -/
theorem C79_sums_are_usable (c : WikiConf) (hs : RealSums c) : SumsUsable c where
  sha1 s h := by
    have hl := (C79_sums_are_digits c hs s).1
    simp only [List.mem_cons, List.not_mem_nil, or_false] at h
    rcases h with h | h | h <;> rw [h] at hl <;> simp at hl
  md5 s := by rw [(C79_sums_are_digits c hs s).2.2.1]; decide

/-- No character of a hexadecimal number is changed in the name of a cache file. -/
theorem sanitize_hex {s : Str} (h : ∀ d ∈ s, d ∈ b!"0123456789abcdef") : sanitizeFilename s = s := by
  refine C10_sanitize_plain s fun d hd => ?_
  have key : ∀ x ∈ b!"0123456789abcdef", x ≠ 0x25 ∧ x ∉ forbidden := by decide
  exact key d (h d hd)

/-- **C79** (names) The answer for a template and the id of a formula are stored in a file that lies directly in its folder of the
cache and has the sum as name. Two templates (or formulas) have the same file only if they have the same SHA-1 sum. -/
theorem C79_files_of_templates_and_formulas (c : WikiConf) (hs : RealSums c) (cacheDir folder : Str) (hf : Plain folder) (s t : Str) :
    getFilePathInCache cacheDir folder (c.sha1hex s) = getDirPathInCache cacheDir folder ++ b!"/" ++ c.sha1hex s ∧
    (getFilePathInCache cacheDir folder (c.sha1hex s) = getFilePathInCache cacheDir folder (c.sha1hex t) ↔ sha1 s = sha1 t) := by
  have hu := C79_sums_are_usable c hs
  have hp := plain_sanitize (hu.sha1 s)
  constructor
  · unfold getFilePathInCache getDirPathInCache
    rw [pathJoin_three hf hp, pathJoin_two hf, sanitize_hex (C79_sums_are_digits c hs s).2.1]
    have : cleanElems cacheDir ++ [folder, c.sha1hex s] = (cleanElems cacheDir ++ [folder]) ++ [c.sha1hex s] := by simp
    rw [this, renderPath_append (by simp)]
  · constructor
    · intro h
      have := (C09_entry_paths_injective cacheDir folder folder _ _ hf hf (hu.sha1 s) (hu.sha1 t) h).2
      rw [hs.sha1] at this
      exact hexEncode_injective this
    · intro h
      rw [hs.sha1]
      unfold Go.sha1hex
      rw [h]

/-- **C79** (addresses) The address of an image file exists for each name and contains the first and the first two digits of the MD5
sum as folders, as wikis store their files. -/
theorem C79_address_of_image_file (c : WikiConf) (hs : RealSums c) (host name : Str) :
    ∃ x y rest, md5hex name = x :: y :: rest ∧ x ∈ b!"0123456789abcdef" ∧ y ∈ b!"0123456789abcdef" ∧
      imageUrl c host name = .ok (b!"https://" ++ c.imageHost ++ b!"/wikipedia/" ++ wikiInstancePathSegment host ++ b!"/" ++ [x] ++
        b!"/" ++ [x, y] ++ b!"/" ++ queryEscape name) := by
  obtain ⟨-, -, hl, hm⟩ := C79_sums_are_digits c hs name
  rw [hs.md5] at hl hm
  rcases h : md5hex name with _ | ⟨x, _ | ⟨y, rest⟩⟩
  · rw [h] at hl; simp at hl
  · rw [h] at hl; simp at hl
  · rw [h] at hm
    refine ⟨x, y, rest, rfl, hm x (by simp), hm y (by simp), ?_⟩
    unfold imageUrl
    rw [hs.md5, h]
    rfl

/-- Two templates and their files. -/
example :
    let c := { demoConf [] with sha1hex := Go.sha1hex, md5hex := Go.md5hex }
    RealSums c ∧ getFilePathInCache b!"/cache" b!"templates" (c.sha1hex b!"{{a}}") =
      b!"/cache/templates/8ef8e05a9b7a7931e6a9c10bbe530a17fcbd541a" ∧ sha1 b!"{{a}}" ≠ sha1 b!"{{b}}" :=
  ⟨⟨rfl, rfl⟩, by decide +kernel, by decide +kernel⟩

example : sha1hex b!"abc" = b!"a9993e364706816aba3e25717850c26c9cd0d89d" := by decide +kernel
example : md5hex b!"abc" = b!"900150983cd24fb0d6963f7d28e17f72" := by decide +kernel

/-- A text of more than one block: 62 letters and digits. -/
example :
    let s := b!"ABCDEFGHIJKLMNOPQRSTUVWXYZabcdefghijklmnopqrstuvwxyz0123456789"
    sha1hex s = b!"761c457bf73b14d27e9e9265c46f4b4dda11f940" ∧ md5hex s = b!"d174ab98d277d9f5a5611c2c9f419d9f" := by
  decide +kernel

/-- The hypothesis is met, and the address is the one at which Wikimedia has this file. -/
example :
    let c := { demoConf [] with sha1hex := Go.sha1hex, md5hex := Go.md5hex, imageHost := b!"upload.wikimedia.org" }
    RealSums c ∧ imageUrl c b!"commons.wikimedia.org" b!"The_Earth_seen_from_Apollo_17.jpg" =
      .ok b!"https://upload.wikimedia.org/wikipedia/commons/9/97/The_Earth_seen_from_Apollo_17.jpg" :=
  ⟨⟨rfl, rfl⟩, by decide +kernel⟩

end Verif.Props
