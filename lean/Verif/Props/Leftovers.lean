import Verif.Props.Standalone
import Verif.Props.Cache

/-!
# C92: what interrupted runs have left is removed at the start, and nothing else
-/

namespace Verif.Props
open Verif.Go Verif.Model Verif.Spec Verif.Lemmas FSl
open scoped List

theorem mkdirAll_keeps {d d' : Disk} {cwd p : Str} (h : Model.mkdirAll d cwd p = some d') {q : List Str} {k : NodeKind} (hq : d q = some k) :
    d' q = some k := by
  unfold Model.mkdirAll at h
  split at h
  · cases h
  · rename_i hn
    cases h
    simp only
    split
    · rename_i hp
      cases k with
      | folder => rfl
      | file =>
        exfalso
        apply hn
        have hp' := hasPrefix_iff.mp hp
        rw [List.any_eq_true]
        refine ⟨q.length, List.mem_range.mpr (by have := hp'.length_le; omega), ?_⟩
        rw [← List.prefix_iff_eq_take.mp hp', hq]
        decide
    · exact hq

theorem ensureDirectories_keeps {cwd : Str} {ps : List Str} {d d' : Disk} (h : ensureDirectories cwd ps d = some d') {q : List Str}
    {k : NodeKind} (hq : d q = some k) : d' q = some k := by
  induction ps generalizing d with
  | nil => cases h; exact hq
  | cons p ps ih =>
    unfold ensureDirectories at h
    split at h
    · cases h
    · rename_i d1 h1
      refine ih h ?_
      split at h1
      · cases h1; exact hq
      · exact mkdirAll_keeps h1 hq

theorem createFile_keeps {d d' : Disk} {cwd p : Str} (h : createFile d cwd p = some d') {q : List Str} {k : NodeKind} (hq : d q = some k) :
    d' q = some k := by
  unfold createFile at h
  split at h
  · cases h
  split at h
  · cases h
  split at h
  · cases h
  split at h
  · cases h
  · rename_i h1 _
    cases h
    simp only
    split
    · rename_i he
      subst he
      cases k with
      | folder => exact absurd hq h1
      | file => rfl
    · exact hq

theorem ensureOutput_keeps {t cwd o out : Str} {d d' : Disk} (h : ensureOutput t cwd o d = (.ok out, d')) {q : List Str} {k : NodeKind}
    (hq : d q = some k) : d' q = some k := by
  unfold ensureOutput at h
  simp only at h
  split at h
  · split at h
    · cases h
    · rename_i h1
      split at h
      · cases h
      · rename_i h2
        cases h
        exact createFile_keeps h2 (mkdirAll_keeps h1 hq)
  · cases h; exact hq

/-- The folder for temporary files. -/
def tempPlace (c : Config) : List Str := elements (c.str .cacheDir) ++ [b!".tmp"]

/-- **C92**: when the work begins, the folder for temporary files is there and is empty, whatever was in it. -/
theorem C92_leftovers_are_removed (c : Config) (cwd o out : Str) (d d' : Disk) (hcache : isAbs (c.str .cacheDir) = true)
    (h : prepare c cwd o d = (.ok out, d')) :
    d' (tempPlace c) = some .folder ∧ ∀ q, tempPlace c <+: q → q ≠ tempPlace c → d' q = none := by
  obtain ⟨d1, -, h4⟩ := ensurePaths_inv (prepare_inv h).1
  have hpl : place cwd (pathJoin [c.str .cacheDir, b!".tmp"]) = tempPlace c := cacheFolder_place hcache (by decide)
  constructor
  · rw [show cacheFolderNames = b!".tmp" :: cacheFolderNames.tail from rfl, List.map_cons, ensureDirectories] at h4
    have hno : existsOnDisk (removeTree d1 cwd (pathJoin [c.str .cacheDir, b!".tmp"])) cwd (pathJoin [c.str .cacheDir, b!".tmp"]) = false := by
      obtain ⟨a1, -⟩ := elements_pathJoin hcache (name := b!".tmp") (by decide) (by decide)
      rw [Bool.eq_false_iff]
      intro he
      refine existsOnDisk_abs a1 he ?_
      unfold removeTree
      rw [place_abs a1, if_pos (hasPrefix_iff.mpr (List.prefix_refl _))]
    simp only [hno, Bool.false_eq_true, if_false] at h4
    split at h4
    · cases h4
    · rename_i d2 h5
      refine ensureDirectories_folder h4 (mkdirAll_folder h5 (.inl ?_))
      rw [hpl]
  · intro q hq hne
    by_contra hn
    rcases ensureDirectories_created h4 hn with h6 | ⟨f, hf, h6⟩
    · apply h6
      unfold removeTree
      rw [hpl, if_pos (hasPrefix_iff.mpr hq)]
    · obtain ⟨g, hg, rfl⟩ := List.mem_map.mp hf
      rw [cacheFolder_place hcache hg] at h6
      have l1 := hq.length_le
      have l2 := h6.length_le
      simp only [tempPlace, List.length_append, List.length_singleton] at l1 l2
      exact hne (hq.eq_of_length (by simp only [tempPlace, List.length_append, List.length_singleton]; omega)).symm

/-- **C92**: everything else that was there is still there: all files of the cache, and all files of the user. -/
theorem C92_nothing_else_is_removed (c : Config) (cwd o out : Str) (d d' : Disk) (hcache : isAbs (c.str .cacheDir) = true)
    (h : prepare c cwd o d = (.ok out, d')) (q : List Str) (hq : ¬ tempPlace c <+: q) (k : NodeKind) (hk : d q = some k) : d' q = some k := by
  obtain ⟨d1, h3, h4⟩ := ensurePaths_inv (prepare_inv h).1
  have hpl : place cwd (pathJoin [c.str .cacheDir, b!".tmp"]) = tempPlace c := cacheFolder_place hcache (by decide)
  refine ensureDirectories_keeps h4 ?_
  unfold removeTree
  rw [hpl, if_neg (fun he => hq (hasPrefix_iff.mp he))]
  exact ensureOutput_keeps h3 hk

/-- **C92**: there is something at the path of each folder of the cache. -/
theorem C92_folders_of_the_cache_exist (c : Config) (cwd o out : Str) (d d' : Disk) (hcache : isAbs (c.str .cacheDir) = true)
    (h : prepare c cwd o d = (.ok out, d')) (f : Str) (hf : f ∈ cacheFolderNames) : d' (elements (c.str .cacheDir) ++ [f]) ≠ none := by
  obtain ⟨d1, -, h4⟩ := ensurePaths_inv (prepare_inv h).1
  have main : ∀ (ps : List Str) (d0 : Disk), (∀ p ∈ ps, isAbs p = true) → ensureDirectories cwd ps d0 = some d' → ∀ p ∈ ps, d' (elements p) ≠ none := by
    intro ps
    induction ps with
    | nil => intro _ _ _ p hp; cases hp
    | cons p ps ih =>
      intro d0 habs h5 x hx
      unfold ensureDirectories at h5
      split at h5
      · cases h5
      · rename_i d2 h6
        rcases List.mem_cons.mp hx with rfl | hx
        · have hab := habs x List.mem_cons_self
          have : d2 (elements x) ≠ none := by
            split at h6
            · rename_i he
              cases h6
              exact existsOnDisk_abs hab he
            · rw [mkdirAll_folder h6 (.inl (by rw [place_abs hab]))]
              exact fun hh => by cases hh
          obtain ⟨k, hk⟩ := Option.ne_none_iff_exists'.mp this
          rw [ensureDirectories_keeps h5 hk]
          exact fun hh => by cases hh
        · exact ih d2 (fun y hy => habs y (List.mem_cons_of_mem _ hy)) h5 x hx
  have hpl : ∀ g ∈ cacheFolderNames, isAbs (pathJoin [c.str .cacheDir, g]) = true ∧
      elements (pathJoin [c.str .cacheDir, g]) = elements (c.str .cacheDir) ++ [g] := by
    intro g hg
    simp only [cacheFolderNames, List.mem_cons, List.not_mem_nil, or_false] at hg
    rcases hg with rfl | rfl | rfl | rfl | rfl | rfl <;> exact elements_pathJoin hcache (by decide) (by decide)
  have := main _ _ (fun p hp => by obtain ⟨g, hg, rfl⟩ := List.mem_map.mp hp; exact (hpl g hg).1) h4 (pathJoin [c.str .cacheDir, f])
    (List.mem_map.mpr ⟨f, hf, rfl⟩)
  rwa [(hpl f hf).2] at this

theorem elements_temp {env : CacheEnv} {name rnd : Str} (hr : Digits rnd) (hcache : isAbs env.cacheDir = true) :
    elements (tempFilepath env name rnd) = elements env.cacheDir ++ [b!".tmp"] ++ [sanitizeFilename name ++ rnd] := by
  have hp := plain_temp (filename := name) hr
  have e : tempFilepath env name rnd = getTempPath env.cacheDir ++ sepB :: (sanitizeFilename name ++ rnd) := by
    simp [tempFilepath, sepB]
  rw [e, elements_append, split_singleton_of_not_mem hp.no_sep, walk_plain (by
    have h1 := hp.ne_nil; have h2 := hp.ne_dot; have h3 := hp.ne_dotdot
    simp only [List.mem_cons, List.not_mem_nil, or_false, not_or]
    exact ⟨h1, h2, h3⟩)]
  unfold getTempPath tempDirName
  rw [(elements_pathJoin hcache (by decide) (by decide)).2]

/-- **C92** (interrupted runs): wherever a run is interrupted while it stores a file, each path that it has added is the one of the complete
file (C01) or there is nothing at this path any more when the next run begins its work, whatever else is on the disk by then. -/
theorem C92_interrupted_writes_leave_nothing (c : Config) (env : CacheEnv) (he : env.cacheDir = c.str .cacheDir)
    (hcache : isAbs (c.str .cacheDir) = true) (hw : WalkOk env) (folder name : Str) (hv : ValidKey env folder name) (reader : Reader) (rnd : Str)
    (hr : Digits rnd) (now : Int) (faults : Nat → Bool) (n : Nat) (fs : FS) (hwf : fs.WF)
    (s : FS) (hs : s ∈ (cacheToFile env folder name reader rnd now faults n fs).log ++ [(cacheToFile env folder name reader rnd now faults n fs).fs])
    (p : Str) (hnew : fs.get p = none) (hthere : s.get p ≠ none)
    (cwd o out : Str) (d d' : Disk) (h : prepare c cwd o d = (.ok out, d')) :
    p = getFilePathInCache env.cacheDir folder name ∨ d' (elements p) = none := by
  by_cases h1 : p = getFilePathInCache env.cacheDir folder name
  · exact .inl h1
  by_cases h2 : p = tempFilepath env name rnd
  · right
    subst h2
    have e := elements_temp (name := name) hr (he ▸ hcache)
    rw [he] at e
    refine (C92_leftovers_are_removed c cwd o out d d' hcache h).2 _ ?_ ?_
    · rw [e]; exact List.prefix_append _ _
    · rw [e]
      intro hh
      have := congrArg List.length hh
      simp [tempPlace] at this
  · exfalso
    rcases C01_write_frame env folder name reader rnd now faults n fs hw hv hr hwf s hs p h2 h1 with h3 | h3
    · exact hthere (h3.trans hnew)
    · exact hthere h3.1

/-- A disk with the rest of an interrupted run and a file of the cache. -/
def leftoverDisk : Disk := fun q =>
  if q ∈ [[b!"c"], [b!"c", b!".tmp"], [b!"c", b!"images"]] then some .folder
  else if q ∈ [[b!"c", b!".tmp", b!"a.png123"], [b!"c", b!"images", b!"b.png"]] then some .file
  else noteDisk q

example : isAbs (noteConfig.str .cacheDir) = true ∧ tempPlace noteConfig = [b!"c", b!".tmp"] ∧
    (∃ d', prepare noteConfig b!"/w" b!"/w/ebook.epub" leftoverDisk = (.ok b!"/w/ebook.epub", d')) ∧
    leftoverDisk [b!"c", b!".tmp", b!"a.png123"] = some .file ∧ ¬ tempPlace noteConfig <+: [b!"c", b!"images", b!"b.png"] ∧
    leftoverDisk [b!"c", b!"images", b!"b.png"] = some .file := by
  refine ⟨by decide, by decide +kernel, ?_, by decide +kernel, by decide +kernel, by decide +kernel⟩
  have h : (prepare noteConfig b!"/w" b!"/w/ebook.epub" leftoverDisk).1 = .ok b!"/w/ebook.epub" := by decide +kernel
  exact ⟨(prepare noteConfig b!"/w" b!"/w/ebook.epub" leftoverDisk).2, by rw [← h]⟩

/-- A state in which a run is interrupted has a temporary file. -/
example : ∃ s ∈ (cacheToFile (demoEnv .none) b!"images" b!"a.png" ⟨b!"123", true⟩ b!"77" 5 (fun _ => false) 0 []).log,
    s.get (tempFilepath (demoEnv .none) b!"a.png" b!"77") = some ⟨b!"12", 5⟩ := by decide +kernel

end Verif.Props
