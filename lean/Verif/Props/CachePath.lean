import Verif.Model.CachePath
import Verif.Lemmas.Path
import Verif.Lemmas.Sanitize

/-! # C09, C12: paths of cache entries -/

namespace Verif.Props

open Verif.Go Verif.Model Verif.Spec Verif.Lemmas

theorem plain_sanitize {n : Str} (h : n ∉ [b!"", b!".", b!".."]) : Plain (sanitizeFilename n) := by
  simp only [List.mem_cons, List.not_mem_nil, or_false, not_or] at h
  obtain ⟨h1, h2, h3⟩ := h
  refine ⟨?_, ?_, ?_, ?_⟩
  · intro e; apply h1; rw [← percentDecode_sanitize n, e]; rfl
  · intro e; apply h2; rw [← percentDecode_sanitize n, e]; rfl
  · intro e; apply h3; rw [← percentDecode_sanitize n, e]; rfl
  · intro e; exact sanitize_no_forbidden n _ e (by decide)

/-- The cache folders of wiki2book (src/cache/cache.go:19-25) are plain path elements. -/
theorem cache_folders_plain : ∀ f ∈ [b!".tmp", b!"articles", b!"html", b!"stats", b!"images", b!"math",
    b!"templates"], Plain f := by
  intro f hf
  simp only [List.mem_cons, List.not_mem_nil, or_false] at hf
  rcases hf with rfl|rfl|rfl|rfl|rfl|rfl|rfl <;> constructor <;> decide

/-- **C09** (containment): the path of an entry is the path of its cache folder, a slash and one further
path element that is none of ``, `.`, `..` and contains no slash. -/
theorem C09_entry_is_direct_child (cacheDir folder name : Str) (hf : Plain folder)
    (hn : name ∉ [b!"", b!".", b!".."]) :
    ∃ last : Str, getFilePathInCache cacheDir folder name =
        getDirPathInCache cacheDir folder ++ b!"/" ++ last ∧
      sepB ∉ last ∧ last ∉ [b!"", b!".", b!".."] := by
  have hp := plain_sanitize hn
  refine ⟨sanitizeFilename name, ?_, hp.no_sep, ?_⟩
  · unfold getFilePathInCache getDirPathInCache
    rw [pathJoin_three hf hp, pathJoin_two hf]
    have : cleanElems cacheDir ++ [folder, sanitizeFilename name] =
      (cleanElems cacheDir ++ [folder]) ++ [sanitizeFilename name] := by simp
    rw [this, renderPath_append (by simp)]
  · simp [hp.ne_nil, hp.ne_dot, hp.ne_dotdot]

/-- **C09** (no sharing): two different keys (folder, name) are stored at different paths. -/
theorem C09_entry_paths_injective (cacheDir folder folder' name name' : Str) (hf : Plain folder)
    (hf' : Plain folder') (hn : name ∉ [b!"", b!".", b!".."]) (hn' : name' ∉ [b!"", b!".", b!".."])
    (h : getFilePathInCache cacheDir folder name = getFilePathInCache cacheDir folder' name') :
    folder = folder' ∧ name = name' := by
  have hp := plain_sanitize hn
  have hp' := plain_sanitize hn'
  unfold getFilePathInCache at h
  rw [pathJoin_three hf hp, pathJoin_three hf' hp'] at h
  have h1 := NF_append_plain (d := cacheDir) (l := [folder, sanitizeFilename name])
    (by simpa using ⟨hf, hp⟩)
  have h2 := NF_append_plain (d := cacheDir) (l := [folder', sanitizeFilename name'])
    (by simpa using ⟨hf', hp'⟩)
  have := congrArg cleanElems h
  rw [cleanElems_renderPath h1, cleanElems_renderPath h2, List.append_cancel_left_eq] at this
  simp only [List.cons.injEq, and_true] at this
  refine ⟨this.1, ?_⟩
  rw [← percentDecode_sanitize name, this.2, percentDecode_sanitize]

/-- The exclusion of `..` is necessary: the "entry" named `..` is the cache directory itself. -/
theorem C09_dotdot_escapes :
    getFilePathInCache b!"/home/u/cache" b!"images" b!".." = b!"/home/u/cache" := by decide

example : getFilePathInCache b!"/home/u/../c" b!"images" b!"../../etc/passwd" =
    b!"/home/c/images/..%2F..%2Fetc%2Fpasswd" := by decide

/-- **C12**: the relative path of an entry, as used in HTML, is what `GetRelativeFilePathInCache`
computes, and joined with the cache directory it is the path of the entry again. -/
theorem C12_relative_path_round_trip (cacheDir folder name : Str) (hf : Plain folder)
    (hn : name ∉ [b!"", b!".", b!".."]) :
    getPathRelativeToCache cacheDir (getFilePathInCache cacheDir folder name) =
        getRelativeFilePathInCache folder name ∧
    pathJoin [cacheDir, getRelativeFilePathInCache folder name] =
        getFilePathInCache cacheDir folder name ∧
    isAbs (getRelativeFilePathInCache folder name) = false := by
  have hp := plain_sanitize hn
  have hrel : getRelativeFilePathInCache folder name = folder ++ b!"/" ++ sanitizeFilename name := by
    unfold getRelativeFilePathInCache
    rw [pathJoin_three hf hp]; rfl
  have hpath : getFilePathInCache cacheDir folder name =
      renderPath (isAbs cacheDir) (cleanElems cacheDir ++ [folder, sanitizeFilename name]) :=
    pathJoin_three hf hp
  have hNF := NF_append_plain (d := cacheDir) (l := [folder, sanitizeFilename name])
    (by simpa using ⟨hf, hp⟩)
  have hce := cleanElems_renderPath hNF
  have hab := isAbs_renderPath hNF
  refine ⟨?_, ?_, ?_⟩
  · unfold getPathRelativeToCache toRelativePathWithBasedir
    have hne : getFilePathInCache cacheDir folder name ≠ [] := by
      obtain ⟨l, hl, -⟩ := C09_entry_is_direct_child cacheDir folder name hf hn
      rw [hl]; simp
    rw [if_pos hne, hrel]
    have hclean : clean (getFilePathInCache cacheDir folder name) ≠ clean cacheDir := by
      intro e
      have := congrArg cleanElems e
      rw [cleanElems_clean, cleanElems_clean, hpath, hce] at this
      simp at this
    have hstrip : ∀ l m : List Str, stripCommon l (l ++ m) = ([], m) := by
      intro l m
      induction l with
      | nil => cases m <;> rfl
      | cons a t ih => simpa [stripCommon] using ih
    have : rel cacheDir (getFilePathInCache cacheDir folder name) =
        .ok (folder ++ b!"/" ++ sanitizeFilename name) := by
      unfold rel
      rw [if_neg hclean]
      rw [hpath, hab, hce, hstrip]
      simp [join]
    rw [this]
  · rw [hrel]
    by_cases hd : cacheDir = []
    · subst hd
      have : pathJoin [[], folder ++ b!"/" ++ sanitizeFilename name] =
          getFilePathInCache [] folder name := by
        simp [pathJoin, getFilePathInCache, join, hf.ne_nil]
      exact this
    · simp [pathJoin, getFilePathInCache, join, hd]
  · rw [hrel, List.append_assoc, isAbs_append hf.ne_nil]
    exact isAbs_false_of_no_sep hf.no_sep

example : getPathRelativeToCache b!"/home/u/./c/" b!"/home/u/c/images/a%3Ab.png" = b!"images/a%3Ab.png" := by
  decide

/-- **C10** (accepted, with directories): if the cache directory passes the sanitised-path check, so does
every path of an entry, so the guards of the file operations never abort a run because of an entry's
name. -/
theorem C10_entry_path_accepted (cacheDir folder name : Str) (hf : Plain folder)
    (hn : name ∉ [b!"", b!".", b!".."]) (hd : isSanitized (getDirPathInCache cacheDir folder) = true) :
    isSanitized (getFilePathInCache cacheDir folder name) = true := by
  have hp := plain_sanitize hn
  have : getFilePathInCache cacheDir folder name =
      getDirPathInCache cacheDir folder ++ b!"/" ++ sanitizeFilename name := by
    unfold getFilePathInCache getDirPathInCache
    rw [pathJoin_three hf hp, pathJoin_two hf]
    have : cleanElems cacheDir ++ [folder, sanitizeFilename name] =
      (cleanElems cacheDir ++ [folder]) ++ [sanitizeFilename name] := by simp
    rw [this, renderPath_append (by simp)]
  rw [this]
  unfold isSanitized at hd ⊢
  rw [List.append_assoc, List.singleton_append, split_singleton_append_split,
    split_singleton_of_not_mem hp.no_sep, List.all_append, hd]
  simp [isSanitizedPart_sanitize]

example : isSanitized (getFilePathInCache b!"/home/u/.cache/wiki2book" b!"images" b!"100%: a/b?") = true := by
  decide

end Verif.Props
