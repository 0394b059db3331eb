import Verif.Lemmas.Output

/-!
# The output file (C65)
-/

namespace Verif.Props
open Verif.Go Verif.Model Verif.Spec Verif.Lemmas
open scoped List

/-- Accepted names are not replaced. -/
theorem ensureOutput_accepted {t cwd p : Str} {d : Disk} (hacc : Accepted t p) : ensureOutput t cwd p d =
    match statKind d cwd p with
    | none =>
      match mkdirAll d cwd (dir p) with
      | none => (.fatal, d)
      | some d =>
        match createFile d cwd p with
        | none => (.fatal, d)
        | some d => (.ok (finishOutput t cwd p .file), d)
    | some kind => (.ok (finishOutput t cwd p kind), d) := by
  have h1 : ¬ (t = b!"stats-json" ∧ ¬ hasSuffix p b!"json" = true) := by
    rintro ⟨h, hn⟩
    exact hn (hasSuffix_iff.mpr (hacc.1 h))
  have h2 : ¬ (t = b!"stats-txt" ∧ ¬ hasSuffix p b!"txt" = true) := by
    rintro ⟨h, hn⟩
    exact hn (hasSuffix_iff.mpr (hacc.2 h))
  unfold ensureOutput
  simp only [if_neg h1, if_neg h2]
  rfl

theorem ensureOutput_ok {t cwd p : Str} {d : Disk} (hd : DiskOk d) (ht : ∃ name, defaultName t name) (hacc : Accepted t p)
    (hp : isAbs p = true) (hn : d (elements p) = some .folder ∨ NamesFile p) (hfree : NoFileAbove d (elements p)) :
    ∃ out d', ensureOutput t cwd p d = (.ok out, d') ∧ IsOutput d d' t p out := by
  rw [ensureOutput_accepted hacc, statKind_abs hp hn]
  have hne : p ≠ [] := by rintro rfl; simp [isAbs, hasPrefix] at hp
  cases hk : d (elements p) with
  | some kind =>
    refine ⟨_, _, rfl, ?_⟩
    cases kind with
    | folder =>
      have hin : ∀ name, defaultName t name → elements (finishOutput t cwd p .folder) = elements p ++ [name] :=
        fun name h => (finishOutput_folder t cwd hp h).2
      obtain ⟨name, hname⟩ := ht
      have hf := finishOutput_folder t cwd hp hname
      exact ⟨hf.1, fun h => absurd hk h, fun _ => hin, by rw [hf.2]; simpa using hk, fun q _ => rfl, fun q h => absurd rfl h⟩
    | file =>
      rw [finishOutput_file t cwd hp]
      refine ⟨hp, fun _ => ⟨rfl, hk⟩, fun h => by rw [hk] at h; simp at h, ?_, fun q _ => rfl, fun q h => absurd rfl h⟩
      rcases hn with hn | hn
      · rw [hk] at hn; simp at hn
      · obtain ⟨_, e, he, _⟩ := elements_dir hp hn
        have := hd.parents (elements (dir p)) e (by rw [← he, hk]; simp)
        rw [he]
        simpa using this
  | none =>
    have hn : NamesFile p := by
      rcases hn with hn | hn
      · rw [hk] at hn; simp at hn
      · exact hn
    obtain ⟨hda, e, he, hs⟩ := elements_dir hp hn
    have hmk := mkdirAll_free (cwd := cwd) hda (d := d) fun q hq => hfree q (by rw [he]; exact hq.trans (List.prefix_append _ _))
      (by rintro rfl; rw [he] at hq; have := hq.length_le; simp at this; omega)
    rw [hmk]
    have hnot : hasPrefix (elements (dir p)) (elements p) = false := by
      rw [Bool.eq_false_iff, Ne, hasPrefix_iff, he]
      intro h
      have := h.length_le
      simp at this
      omega
    have hcr : createFile (fun q => if hasPrefix (elements (dir p)) q then some .folder else d q) cwd p =
        some fun q => if q = elements p then some .file else if hasPrefix (elements (dir p)) q then some .folder else d q := by
      unfold createFile
      rw [place_abs hp, if_neg hne, if_neg (by simp [hs]), if_neg (by simp [hnot, hk]), if_neg]
      rw [he]
      have : hasPrefix (elements (dir p)) (elements (dir p)) = true := hasPrefix_iff.mpr (List.prefix_refl _)
      simp [this]
    simp only [hcr]
    refine ⟨_, _, rfl, ?_⟩
    rw [finishOutput_file t cwd hp]
    refine ⟨hp, fun _ => ⟨rfl, by simp⟩, fun h => by rw [hk] at h; simp at h, ?_, ?_, ?_⟩
    · have h1 : hasPrefix (elements (dir p)) (elements (dir p)) = true := hasPrefix_iff.mpr (List.prefix_refl _)
      rw [he]
      simp [h1]
    · intro q hq
      have h1 : q ≠ elements p := by rintro rfl; exact hq hk
      simp only [if_neg h1]
      split
      · rename_i h2
        have h2 := hasPrefix_iff.mp h2
        have h3 := hfree q (by rw [he]; exact h2.trans (List.prefix_append _ _)) h1
        cases hv : d q with
        | none => exact absurd hv hq
        | some k => cases k with
          | file => exact absurd hv h3
          | folder => rfl
      · rfl
    · intro q hq
      by_cases h1 : q = elements p
      · rw [h1]; exact List.prefix_refl _
      · simp only [if_neg h1] at hq
        split at hq
        · rename_i h2
          rw [he]
          exact (hasPrefix_iff.mp h2).trans (List.prefix_append _ _)
        · exact absurd rfl hq

/-- **C65**, articles and single files: the output is at the given path, or has the default name in the given folder, provided that the
name is one for this type of output, and that an absolute path that ends with a slash names an existing folder. -/
theorem C65_article_output_is_at_the_given_path_partial (t cwd : Str) (d : Disk) (hd : DiskOk d) (ht : ∃ name, defaultName t name)
    (hc : isAbs cwd = true) (p : Str) (hp : p ≠ []) (hacc : Accepted t (resolveAgainst cwd p))
    (hs : isAbs p = true → d (elements p) = some .folder ∨ NamesFile p)
    (hfree : NoFileAbove d (elements (resolveAgainst cwd p))) :
    ∃ out d', articleOutput t cwd (some p) d = (.ok out, d') ∧ IsOutput d d' t (resolveAgainst cwd p) out := by
  unfold articleOutput outputFlag
  rw [Option.getD_some, toAbsolutePath_eq hc]
  have ha : isAbs (resolveAgainst cwd p) = true := by
    rw [← toAbsolutePath_eq hc]; exact isAbs_toAbsolutePath hc hp
  refine ensureOutput_ok hd ht hacc ha ?_ hfree
  by_cases h : isAbs p = true
  · have : resolveAgainst cwd p = p := by rw [← toAbsolutePath_eq hc]; exact toAbsolutePath_of (Or.inr h)
    rw [this]
    exact hs h
  · rcases resolve_names hc hp (by simpa using h) with h | h
    · rw [h]; exact Or.inl hd.root
    · exact Or.inr h

/-- **C65**, articles and single files without a given path: `ebook.epub` in the folder where the program is started. -/
theorem C65_article_default_output_partial (t cwd : Str) (d : Disk) (hd : DiskOk d) (ht : t = b!"epub2" ∨ t = b!"epub3")
    (hc : isAbs cwd = true) (hfree : NoFileAbove d (elements (resolveAgainst cwd b!"ebook.epub"))) :
    ∃ out d', articleOutput t cwd none d = (.ok out, d') ∧ IsOutput d d' t (resolveAgainst cwd b!"ebook.epub") out := by
  have := C65_article_output_is_at_the_given_path_partial t cwd d hd
    ⟨b!"ebook.epub", by rcases ht with rfl | rfl <;> simp [defaultName]⟩ hc b!"ebook.epub" (by decide)
    (by rcases ht with rfl | rfl <;> exact ⟨fun h => absurd h (by decide), fun h => absurd h (by decide)⟩) (fun h => absurd h (by decide)) hfree
  exact this

/-- **C65**, projects: a path of the command line is meant for the folder where the program is started, one of the project file for the
folder of the project file; the command line has priority. -/
theorem C65_project_output_is_at_the_given_path_partial (t cwd pf : Str) (d : Disk) (hd : DiskOk d) (ht : ∃ name, defaultName t name)
    (hc : isAbs cwd = true) (flag : Option Str) (setting p folder : Str)
    (hw : (flag = some p ∧ folder = cwd) ∨ (flag = none ∧ setting = p ∧ folder = projectCwd cwd pf)) (hp : p ≠ [])
    (hacc : Accepted t (resolveAgainst folder p)) (hs : isAbs p = true → d (elements p) = some .folder ∨ NamesFile p)
    (hfree : NoFileAbove d (elements (resolveAgainst folder p))) :
    ∃ out d', projectOutput t cwd pf flag setting d = (.ok out, d') ∧ IsOutput d d' t (resolveAgainst folder p) out := by
  have hc2 := isAbs_projectCwd (pf := pf) hc
  have hf : isAbs folder = true := by
    rcases hw with ⟨_, rfl⟩ | ⟨_, _, rfl⟩ <;> assumption
  have ha : isAbs (resolveAgainst folder p) = true := by
    rw [← toAbsolutePath_eq hf]; exact isAbs_toAbsolutePath hf hp
  have hne : resolveAgainst folder p ≠ [] := by intro h; rw [h] at ha; simp [isAbs, hasPrefix] at ha
  have e : projectOutput t cwd pf flag setting d = ensureOutput t (projectCwd cwd pf) (resolveAgainst folder p) d := by
    unfold projectOutput
    rcases hw with ⟨rfl, rfl⟩ | ⟨rfl, rfl, rfl⟩
    · have h0 : outputFlag folder (some p) = resolveAgainst folder p := toAbsolutePath_eq hf
      simp only [h0, ne_eq, hne, not_false_eq_true, if_true]
      rw [toAbsolutePath_of (Or.inr ha)]
    · simp only [ne_eq, not_true_eq_false, if_false]
      rw [toAbsolutePath_eq hc2]
  rw [e]
  refine ensureOutput_ok hd ht hacc ha ?_ hfree
  by_cases h : isAbs p = true
  · have : resolveAgainst folder p = p := by rw [← toAbsolutePath_eq hf]; exact toAbsolutePath_of (Or.inr h)
    rw [this]
    exact hs h
  · rcases resolve_names hf hp (by simpa using h) with h | h
    · rw [h]; exact Or.inl hd.root
    · exact Or.inr h

/-- **C65**, a file where a folder is needed: the program ends with an error and changes nothing. -/
theorem C65_no_output_below_a_file (t cwd : Str) (d : Disk) (hd : DiskOk d) (hc : isAbs cwd = true) (p : Str) (hp : p ≠ [])
    (hacc : Accepted t (resolveAgainst cwd p)) (hn : NamesFile (resolveAgainst cwd p)) (q : List Str)
    (hq : q <+: elements (resolveAgainst cwd p)) (hne : q ≠ elements (resolveAgainst cwd p)) (hf : d q = some .file) :
    articleOutput t cwd (some p) d = (.fatal, d) := by
  unfold articleOutput outputFlag
  rw [Option.getD_some, toAbsolutePath_eq hc]
  have ha : isAbs (resolveAgainst cwd p) = true := by
    rw [← toAbsolutePath_eq hc]; exact isAbs_toAbsolutePath hc hp
  generalize resolveAgainst cwd p = p at *
  obtain ⟨hda, e, he, hs⟩ := elements_dir ha hn
  have hq2 : q <+: elements (dir p) := by
    rw [he] at hq hne
    rcases List.prefix_concat_iff.mp hq with h | h
    · exact absurd h hne
    · exact h
  have above : ∀ r s : List Str, d (r ++ s) ≠ none → s ≠ [] → d r = some .folder := by
    intro r s
    induction s using List.reverseRecOn with
    | nil => intro _ h; exact absurd rfl h
    | append_singleton s x ih =>
      intro h _
      rw [← List.append_assoc] at h
      have := hd.parents _ _ h
      by_cases hs : s = []
      · simpa [hs] using this
      · exact ih (by rw [this]; simp) hs
  have hnone : d (elements p) = none := by
    by_contra h
    obtain ⟨s, hsq⟩ := hq
    have hsn : s ≠ [] := by rintro rfl; exact hne (by simpa using hsq)
    rw [← hsq] at h
    rw [above q s h hsn] at hf
    simp at hf
  rw [ensureOutput_accepted hacc, statKind_abs ha (Or.inr hn), hnone]
  simp only
  rw [mkdirAll_blocked hda hq2 hf]

/-- **C65** is false for statistics: a path that does not end with "json" is ignored, also the one of an existing folder. -/
theorem C65_statistics_ignore_other_paths (cwd p : Str) (d : Disk) (hc : isAbs cwd = true) (h : ¬ b!"json" <:+ resolveAgainst cwd p) :
    articleOutput b!"stats-json" cwd (some p) d = articleOutput b!"stats-json" cwd (some b!"stats.json") d := by
  have e1 : outputFlag cwd (some p) = resolveAgainst cwd p := toAbsolutePath_eq hc
  have e2 : outputFlag cwd (some b!"stats.json") = toAbsolutePath cwd defaultStatsJsonOutputFile := rfl
  have e3 : b!"json" <:+ toAbsolutePath cwd b!"stats.json" := by
    rw [toAbsolutePath_eq hc]
    unfold resolveAgainst
    rw [if_neg (by decide), if_neg (by decide)]
    have : split b!"stats.json" b!"/" = [b!"stats.json"] := by decide
    rw [this, walk_plain (by decide)]
    generalize walk [] (split cwd b!"/") = w
    have key : ∀ w : List Str, ∃ u, join b!"/" (w ++ [b!"stats.json"]) = u ++ b!"stats.json" := by
      intro w
      induction w with
      | nil => exact ⟨[], rfl⟩
      | cons x w ih =>
        obtain ⟨u, hu⟩ := ih
        refine ⟨x ++ b!"/" ++ u, ?_⟩
        rw [List.cons_append, join_cons_of_ne_nil (by simp), hu]
        simp
    obtain ⟨u, hu⟩ := key w
    rw [hu]
    exact ⟨sepB :: (u ++ b!"stats."), by simp⟩
  unfold articleOutput
  rw [e1, e2]
  have e4 : hasSuffix (toAbsolutePath cwd defaultStatsJsonOutputFile) b!"json" = true := hasSuffix_iff.mpr e3
  have h1 : hasSuffix (resolveAgainst cwd p) b!"json" = false := by
    rw [Bool.eq_false_iff, Ne, hasSuffix_iff]
    exact h
  unfold ensureOutput
  have h2 : ¬ b!"stats-json" = b!"stats-txt" := by decide
  simp only [h1, e4, h2, Bool.false_eq_true, not_false_eq_true, and_self, if_true, false_and, if_false, not_true_eq_false, and_false]

/-- **C65** is false for an absolute path with a slash at its end if there is no such folder: the folder is created, but the program
ends with an error; the next run with the same path uses the folder. -/
theorem C65_new_folder_fails_once (t cwd p name : Str) (d : Disk) (ht : defaultName t name) (hp : isAbs p = true)
    (hacc : Accepted t (p ++ b!"/")) (hnew : d (elements p) = none) (hfree : NoFileAbove d (elements p)) :
    ∃ d', articleOutput t cwd (some (p ++ b!"/")) d = (.fatal, d') ∧ d' (elements p) = some .folder ∧
      ∃ out, articleOutput t cwd (some (p ++ b!"/")) d' = (.ok out, d') ∧ elements out = elements p ++ [name] := by
  have hne : p ≠ [] := by rintro rfl; simp [isAbs, hasPrefix] at hp
  have hp2 : isAbs (p ++ b!"/") = true := by rw [isAbs_append hne]; exact hp
  have hel : elements (p ++ b!"/") = elements p := by
    have := elements_append p []
    rw [this]
    simp [walk]
  have hsuf : hasSuffix (p ++ b!"/") b!"/" = true := hasSuffix_iff.mpr ⟨p, rfl⟩
  have hdir : elements (dir (p ++ b!"/")) = elements p := by
    obtain ⟨a, b, h1, h2, h3, h4⟩ := split_last hp2
    rw [hsuf] at h4
    have hb : b = [] := by simpa using h4.symm
    subst hb
    rw [h3, ← h1, elements_clean hp2, hel]
  have hda := isAbs_dir hp2
  have hall : ∀ q, q <+: elements (dir (p ++ b!"/")) → d q ≠ some .file := by
    intro q hq
    rw [hdir] at hq
    by_cases h : q = elements p
    · rw [h, hnew]; simp
    · exact hfree q hq h
  have harg : ∀ d, articleOutput t cwd (some (p ++ b!"/")) d = ensureOutput t cwd (p ++ b!"/") d := by
    intro d
    unfold articleOutput outputFlag
    rw [Option.getD_some, toAbsolutePath_of (Or.inr hp2)]
  have hne2 : p ++ b!"/" ≠ [] := by simp
  have hself : hasPrefix (elements p) (elements p) = true := hasPrefix_iff.mpr (List.prefix_refl _)
  refine ⟨fun q => if hasPrefix (elements p) q then some .folder else d q, ?_, by simp [hself], ?_⟩
  · rw [harg, ensureOutput_accepted hacc]
    have hst : statKind d cwd (p ++ b!"/") = none := by
      unfold statKind
      rw [if_neg hne2, place_abs hp2, hel, hnew]
    rw [hst, mkdirAll_free hda hall, hdir]
    simp only
    unfold createFile
    rw [if_neg hne2, if_pos hsuf]
  · rw [harg, ensureOutput_accepted hacc]
    rw [statKind_abs hp2 (Or.inl (by simp [hel, hself])), hel]
    simp only [hself, if_true]
    exact ⟨_, rfl, by rw [(finishOutput_folder t cwd hp2 ht).2, hel]⟩

/-- **C65** is false for a project without any path: the program ends with an error. -/
theorem C65_project_without_path_fails (t cwd pf : Str) (d : Disk) (ht : t = b!"epub2" ∨ t = b!"epub3") :
    (projectOutput t cwd pf none [] d).1 = .fatal := by
  have hacc : Accepted t [] := by rcases ht with rfl | rfl <;> exact ⟨by decide, by decide⟩
  unfold projectOutput
  simp only [ne_eq, not_true_eq_false, if_false]
  rw [toAbsolutePath_of (Or.inl rfl), ensureOutput_accepted hacc]
  have : statKind d (projectCwd cwd pf) [] = none := by unfold statKind; rw [if_pos rfl]
  rw [this]
  simp only
  cases mkdirAll d (projectCwd cwd pf) (dir []) with
  | none => rfl
  | some d =>
    simp only
    unfold createFile
    rw [if_pos rfl]

/-- A disk for the examples: `/w` with the folder `books` and the file `a.txt`. -/
def aDisk : Disk := fun q =>
  if q ∈ [[], [b!"w"], [b!"w", b!"books"]] then some .folder
  else if q ∈ [[b!"w", b!"a.txt"]] then some .file
  else none

theorem aDisk_ok : DiskOk aDisk := by
  refine ⟨by decide, ?_⟩
  intro q e h
  unfold aDisk at h
  split at h
  · rename_i hm
    simp only [List.mem_cons, List.not_mem_nil, or_false] at hm
    rcases hm with hm | hm | hm
    · simp at hm
    · have : q = [] := by
        have := congrArg List.length hm; simp at this; exact this
      subst this; decide
    · have := congrArg List.dropLast hm
      simp at this
      subst this; decide
  · split at h
    · rename_i hm
      simp only [List.mem_cons, List.not_mem_nil, or_false] at hm
      have := congrArg List.dropLast hm
      simp at this
      subst this; decide
    · exact absurd rfl h

/-- **C65** is false for a relative path with a slash at its end if there is no such folder: a file with this name is created. -/
theorem C65_relative_folder_becomes_file : (articleOutput b!"epub2" b!"/w" (some b!"out/") aDisk).1 = .ok b!"/w/out" ∧
    (articleOutput b!"epub2" b!"/w" (some b!"out/") aDisk).2 [b!"w", b!"out"] = some .file := by decide +kernel

/-- **C65** is false for statistics within a folder. -/
theorem C65_statistics_are_not_put_into_a_folder :
    (articleOutput b!"stats-json" b!"/w" (some b!"books") aDisk).1 = .ok b!"/w/stats.json" := by decide +kernel

example : DiskOk aDisk ∧ (articleOutput b!"epub3" b!"/w" (some b!"new/a/b.epub") aDisk).1 = .ok b!"/w/new/a/b.epub" ∧
    (articleOutput b!"epub3" b!"/w" (some b!"new/a/b.epub") aDisk).2 [b!"w", b!"new", b!"a"] = some .folder ∧
    (articleOutput b!"epub3" b!"/w" (some b!"books") aDisk).1 = .ok b!"/w/books/ebook.epub" ∧
    (articleOutput b!"epub3" b!"/w" none aDisk).1 = .ok b!"/w/ebook.epub" :=
  ⟨aDisk_ok, by decide +kernel⟩

example : (projectOutput b!"epub2" b!"/w" b!"books/p.json" none b!"b.epub" aDisk).1 = .ok b!"/w/books/b.epub" ∧
    (projectOutput b!"epub2" b!"/w" b!"books/p.json" (some b!"c.epub") b!"b.epub" aDisk).1 = .ok b!"/w/c.epub" := by decide +kernel

example : (articleOutput b!"epub2" b!"/w" (some b!"a.txt/b.epub") aDisk).1 = .fatal ∧
    (articleOutput b!"stats-json" b!"/w" (some b!"x.json") aDisk).1 = .ok b!"/w/x.json" := by decide +kernel

example : defaultName b!"epub2" b!"ebook.epub" ∧ Accepted b!"epub2" b!"/w/out/" ∧ aDisk (elements b!"/w/out") = none ∧
    NoFileAbove aDisk (elements b!"/w/out") ∧ NamesFile b!"/w/out" := by
  refine ⟨by simp [defaultName], ⟨by decide, by decide⟩, by decide +kernel, ?_, ?_⟩
  · intro q h1 h2
    have e : elements b!"/w/out" = [b!"w", b!"out"] := by decide +kernel
    rw [e] at h1 h2
    rcases List.prefix_concat_iff.mp (show q <+: [b!"w"] ++ [b!"out"] from h1) with h | h
    · exact absurd h h2
    · rcases List.prefix_concat_iff.mp (show q <+: [] ++ [b!"w"] from h) with h | h
      · rw [h]; decide +kernel
      · rw [List.prefix_nil.mp h]; decide +kernel
  · intro e h
    have : (split b!"/w/out" b!"/").getLast? = some b!"out" := by decide +kernel
    rw [this] at h
    cases h
    decide

end Verif.Props
