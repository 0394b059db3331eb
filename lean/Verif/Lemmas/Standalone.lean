import Verif.Lemmas.Output
import Verif.Lemmas.Space
import Verif.Spec.Standalone

/-! Lemmas about the preparation of a run. -/

namespace Verif.Lemmas
open Verif.Go Verif.Model Verif.Spec
open scoped List

theorem mkdirAll_created {d d' : Disk} {cwd p : Str} (h : mkdirAll d cwd p = some d') {q : List Str} (hq : d' q ≠ none) :
    d q ≠ none ∨ q <+: place cwd p := by
  unfold mkdirAll at h
  split at h
  · cases h
  · cases h
    simp only at hq
    split at hq
    · rename_i h1
      exact .inr (hasPrefix_iff.mp h1)
    · exact .inl hq

theorem mkdirAll_folder {d d' : Disk} {cwd p : Str} (h : mkdirAll d cwd p = some d') {q : List Str}
    (hq : q <+: place cwd p ∨ d q = some .folder) : d' q = some .folder := by
  unfold mkdirAll at h
  split at h
  · cases h
  · cases h
    simp only
    split
    · rfl
    · rename_i h1
      rcases hq with hq | hq
      · exact absurd (hasPrefix_iff.mpr hq) h1
      · exact hq

theorem ensureDirectories_created {cwd : Str} {ps : List Str} {d d' : Disk} (h : ensureDirectories cwd ps d = some d') {q : List Str}
    (hq : d' q ≠ none) : d q ≠ none ∨ ∃ p ∈ ps, q <+: place cwd p := by
  induction ps generalizing d with
  | nil => cases h; exact .inl hq
  | cons p ps ih =>
    unfold ensureDirectories at h
    split at h
    · cases h
    · rename_i d1 h1
      rcases ih h with h2 | ⟨p', hp', h2⟩
      · split at h1
        · cases h1
          exact .inl h2
        · rcases mkdirAll_created h1 h2 with h3 | h3
          · exact .inl h3
          · exact .inr ⟨p, by simp, h3⟩
      · exact .inr ⟨p', by simp [hp'], h2⟩

theorem ensureDirectories_folder {cwd : Str} {ps : List Str} {d d' : Disk} (h : ensureDirectories cwd ps d = some d') {q : List Str}
    (hq : d q = some .folder) : d' q = some .folder := by
  induction ps generalizing d with
  | nil => cases h; exact hq
  | cons p ps ih =>
    unfold ensureDirectories at h
    split at h
    · cases h
    · rename_i d1 h1
      refine ih h ?_
      split at h1
      · cases h1
        exact hq
      · exact mkdirAll_folder h1 (.inr hq)

theorem trimSpace_abs {p : Str} (h : isAbs p = true) : trimSpace p ≠ [] := by
  intro h0
  have hm : sepB ∈ p := by
    cases p with
    | nil => simp [isAbs, hasPrefix] at h
    | cons c t =>
      have hc : c = sepB := by simpa using isAbs_iff.mp h
      simp [hc]
  have key : ∀ l, AllSpace spaceChars l → sepB ∉ l := by
    rintro l ⟨cs, h1, rfl⟩ h2
    obtain ⟨c, hc, h3⟩ := List.mem_flatten.mp h2
    have : ∀ c ∈ spaceChars, sepB ∉ c := by decide
    exact this c (h1 c hc) h3
  obtain ⟨-, -, l, r, hl, hr, e⟩ := trimSpace_spec p
  rw [h0, List.append_nil] at e
  rw [e, List.mem_append] at hm
  rcases hm with hm | hm
  · exact key l hl hm
  · exact key r hr hm

theorem existsOnDisk_abs {d : Disk} {cwd p : Str} (h : isAbs p = true) (he : existsOnDisk d cwd p = true) : d (elements p) ≠ none := by
  unfold existsOnDisk at he
  intro hn
  refine (of_decide_eq_true he) ⟨trimSpace_abs h, ?_⟩
  unfold statKind
  rw [place_abs h, hn]
  split <;> rfl

theorem existsOnDisk_present {d : Disk} {cwd p : Str} (h : p = [] ∨ isAbs p = true ∧ Present d p) : existsOnDisk d cwd p = true := by
  unfold existsOnDisk
  refine decide_eq_true ?_
  rintro ⟨h1, h2⟩
  rcases h with rfl | ⟨ha, hp⟩
  · exact h1 rfl
  · rw [statKind_abs ha (by rcases hp with hp | hp; exacts [.inl hp, .inr hp.2])] at h2
    rcases hp with hp | hp
    · rw [hp] at h2; cases h2
    · rw [hp.1] at h2; cases h2

theorem cacheFolder_place {cwd dir f : Str} (h : isAbs dir = true) (hf : f ∈ cacheFolderNames) :
    place cwd (pathJoin [dir, f]) = elements dir ++ [f] := by
  have hn : ∀ f ∈ cacheFolderNames, f ∉ [[], b!".", b!".."] ∧ sepB ∉ f := by decide
  obtain ⟨h1, h2⟩ := elements_pathJoin h (hn f hf).1 (hn f hf).2
  rw [place_abs h1, h2]

/-- Only the output file and the folders above it are created. -/
theorem ensureOutput_created {t cwd o out : Str} {d d' : Disk} (hc : isAbs cwd = true) (ho : isAbs o = true)
    (h : ensureOutput t cwd o d = (.ok out, d')) {q : List Str} (hq : d' q ≠ none) : d q ≠ none ∨ q <+: elements out := by
  unfold ensureOutput at h
  have h1 : isAbs (toAbsolutePath cwd defaultStatsJsonOutputFile) = true := isAbs_toAbsolutePath hc (by decide)
  have h2 : isAbs (toAbsolutePath cwd defaultStatsTxtOutputFile) = true := isAbs_toAbsolutePath hc (by decide)
  simp only at h
  generalize ho1 : (if t = b!"stats-json" ∧ ¬ hasSuffix o b!"json" = true then toAbsolutePath cwd defaultStatsJsonOutputFile else o) = o1 at h
  generalize ho' : (if t = b!"stats-txt" ∧ ¬ hasSuffix o1 b!"txt" = true then toAbsolutePath cwd defaultStatsTxtOutputFile else o1) = o' at h
  have ha : isAbs o' = true := by
    rw [← ho']
    split
    · exact h2
    · rw [← ho1]
      split
      · exact h1
      · exact ho
  clear ho' ho1
  split at h
  · split at h
    · cases h
    · rename_i d1 hd1
      split at h
      · cases h
      · rename_i d2 hd2
        cases h
        rw [finishOutput_file t cwd ha]
        obtain ⟨a, b, rfl, hb, hdir, hsuf⟩ := split_last ha
        have hda : isAbs (dir (a ++ sepB :: b)) = true := by rw [hdir, isAbs_clean]; exact isAbs_root_append ha
        have hed : elements (dir (a ++ sepB :: b)) = elements a := by
          rw [hdir, elements_clean (isAbs_root_append ha), elements_append]
          rfl
        have hp : elements (a ++ sepB :: b) = walk (elements a) [b] := by rw [elements_append, split_singleton_of_not_mem hb]
        unfold createFile at hd2
        rw [place_abs ha] at hd2
        split at hd2
        · cases hd2
        · split at hd2
          · cases hd2
          · split at hd2
            · cases hd2
            · split at hd2
              · cases hd2
              · rename_i c1 c2 c3 c4
                cases hd2
                simp only at hq
                split at hq
                · rename_i e1
                  exact .inr (e1 ▸ List.prefix_refl _)
                · rcases mkdirAll_created hd1 hq with h3 | h3
                  · exact .inl h3
                  · right
                    rw [place_abs hda, hed] at h3
                    by_cases hbn : b ∈ [[], b!".", b!".."]
                    · exfalso
                      refine c3 (mkdirAll_folder hd1 (.inl ?_))
                      rw [place_abs hda, hed, hp]
                      simp only [List.mem_cons, List.not_mem_nil, or_false] at hbn
                      rcases hbn with rfl | rfl | rfl
                      · exact List.prefix_refl _
                      · exact List.prefix_refl _
                      · exact List.dropLast_prefix _
                    · rw [hp, walk_plain hbn]
                      exact h3.trans (List.prefix_append _ _)
  · cases h
    exact .inl hq

end Verif.Lemmas
