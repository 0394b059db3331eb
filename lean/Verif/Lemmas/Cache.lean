import Verif.Lemmas.Hoare
import Verif.Spec.Cache
import Verif.Props.CachePath

/-! Lemmas about the cache model. -/

namespace Verif.Lemmas

open Verif.Go Verif.Model Verif.Spec FSl

/-! ### Paths -/

theorem stripCommon_append (l m : List Str) : stripCommon l (l ++ m) = ([], m) := by
  induction l with
  | nil => cases m <;> rfl
  | cons a t ih => simpa [stripCommon] using ih

theorem relElems_render {d : Str} {l : List Str} (hne : l ≠ []) (hl : ∀ e ∈ l, Plain e) :
    relElems d (renderPath (isAbs d) (cleanElems d ++ l)) = some l := by
  have hNF := NF_append_plain (d := d) hl
  unfold relElems
  rw [isAbs_renderPath hNF, cleanElems_renderPath hNF, stripCommon_append]
  cases l with
  | nil => exact absurd rfl hne
  | cons => simp

theorem under_of_visited {d x p : Str} (h : visited d x p = true) : under d p = true := by
  unfold visited at h
  unfold under
  split at h
  · cases h
  · rename_i es he; simp [he]

theorem visited_ne_nil {d x p : Str} (h : visited d x p = true) : p ≠ [] := by
  rintro rfl
  have := under_of_visited h
  unfold under relElems at this
  have hc : cleanElems [] = [] := rfl
  rw [hc] at this
  cases hd : cleanElems d with
  | nil => rw [hd] at this; simp [stripCommon] at this
  | cons a t => rw [hd] at this; simp [stripCommon] at this

theorem plain_temp {filename rnd : Str} (hr : Digits rnd) : Plain (sanitizeFilename filename ++ rnd) := by
  obtain ⟨h0, h1⟩ := hr
  have hlast : ∀ x : Str, x ∈ [b!".", b!".."] → sanitizeFilename filename ++ rnd ≠ x := by
    intro x hx he
    obtain ⟨r, a, rfl⟩ : ∃ r a, rnd = r ++ [a] := ⟨_, _, (List.dropLast_append_getLast h0).symm⟩
    have ha := h1 a (by simp)
    have : x.getLast? = some a := by rw [← he]; simp
    simp only [List.mem_cons, List.not_mem_nil, or_false] at hx
    rcases hx with rfl | rfl <;> (simp at this; subst this; revert ha; decide)
  refine ⟨by simp [h0], hlast _ (by simp), hlast _ (by simp), ?_⟩
  intro hm
  rcases List.mem_append.mp hm with hm | hm
  · exact sanitize_no_forbidden filename _ hm (by decide)
  · exact absurd (h1 _ hm) (by decide)

theorem temp_render (env : CacheEnv) (filename rnd : Str) :
    tempFilepath env filename rnd =
      renderPath (isAbs env.cacheDir) (cleanElems env.cacheDir ++ [b!".tmp", sanitizeFilename filename ++ rnd]) := by
  have ht : Plain b!".tmp" := Props.cache_folders_plain _ (by simp)
  have : cleanElems env.cacheDir ++ [b!".tmp", sanitizeFilename filename ++ rnd] =
      (cleanElems env.cacheDir ++ [b!".tmp"]) ++ [sanitizeFilename filename ++ rnd] := by simp
  rw [this, renderPath_append (by simp)]
  unfold tempFilepath getTempPath tempDirName
  rw [pathJoin_two ht]
  simp

theorem under_temp {env : CacheEnv} {filename rnd : Str} (hr : Digits rnd) :
    under env.cacheDir (tempFilepath env filename rnd) = true := by
  rw [temp_render]
  have ht : Plain b!".tmp" := Props.cache_folders_plain _ (by simp)
  unfold under
  rw [relElems_render (by simp) (by simpa using ⟨ht, plain_temp hr⟩)]
  rfl

theorem not_visited_temp {env : CacheEnv} {filename rnd : Str} (hr : Digits rnd) :
    visited env.cacheDir b!".tmp" (tempFilepath env filename rnd) = false := by
  rw [temp_render]
  have ht : Plain b!".tmp" := Props.cache_folders_plain _ (by simp)
  unfold visited
  rw [relElems_render (by simp) (by simpa using ⟨ht, plain_temp hr⟩)]
  simp

theorem visited_out {env : CacheEnv} {folder filename : Str} (h : ValidKey env folder filename) :
    visited env.cacheDir b!".tmp" (getFilePathInCache env.cacheDir folder filename) = true := by
  have hp := Props.plain_sanitize h.name_ok
  unfold getFilePathInCache
  rw [pathJoin_three h.folder_plain hp]
  unfold visited
  rw [relElems_render (by simp) (by simpa using ⟨h.folder_plain, hp⟩)]
  simp [h.dir_ne, h.folder_ne.symm]

theorem temp_ne_out {env : CacheEnv} {folder filename filename' rnd : Str}
    (h : ValidKey env folder filename) (hr : Digits rnd) :
    tempFilepath env filename' rnd ≠ getFilePathInCache env.cacheDir folder filename := by
  intro e
  have h1 := not_visited_temp (env := env) (filename := filename') hr
  rw [e, visited_out h] at h1
  cases h1

/-! ### Searching -/

theorem foldl_largerStep (l : List (Str × File)) (c : Str × File) :
    ∃ e, l.foldl largerStep (some c) = some e ∧ (e = c ∨ e ∈ l) ∧ c.2.size ≤ e.2.size ∧
      ∀ x ∈ l, x.2.size ≤ e.2.size := by
  induction l generalizing c with
  | nil => exact ⟨c, rfl, Or.inl rfl, Int.le_refl _, by simp⟩
  | cons a t ih =>
    simp only [List.foldl_cons, largerStep]
    split
    · obtain ⟨e, h1, h2, h3, h4⟩ := ih a
      refine ⟨e, h1, ?_, by omega, ?_⟩
      · rcases h2 with rfl | h2
        · exact Or.inr (by simp)
        · exact Or.inr (by simp [h2])
      · intro x hx
        rcases List.mem_cons.mp hx with rfl | hx
        · exact h3
        · exact h4 x hx
    · obtain ⟨e, h1, h2, h3, h4⟩ := ih c
      refine ⟨e, h1, ?_, h3, ?_⟩
      · rcases h2 with rfl | h2
        · exact Or.inl rfl
        · exact Or.inr (by simp [h2])
      · intro x hx
        rcases List.mem_cons.mp hx with rfl | hx
        · omega
        · exact h4 x hx

theorem foldl_olderStep (l : List (Str × File)) (c : Str × File) :
    ∃ e, l.foldl olderStep (some c) = some e ∧ (e = c ∨ e ∈ l) ∧ e.2.mtime ≤ c.2.mtime ∧
      ∀ x ∈ l, e.2.mtime ≤ x.2.mtime := by
  induction l generalizing c with
  | nil => exact ⟨c, rfl, Or.inl rfl, Int.le_refl _, by simp⟩
  | cons a t ih =>
    simp only [List.foldl_cons, olderStep]
    split
    · obtain ⟨e, h1, h2, h3, h4⟩ := ih a
      refine ⟨e, h1, ?_, by omega, ?_⟩
      · rcases h2 with rfl | h2
        · exact Or.inr (by simp)
        · exact Or.inr (by simp [h2])
      · intro x hx
        rcases List.mem_cons.mp hx with rfl | hx
        · exact h3
        · exact h4 x hx
    · obtain ⟨e, h1, h2, h3, h4⟩ := ih c
      refine ⟨e, h1, ?_, h3, ?_⟩
      · rcases h2 with rfl | h2
        · exact Or.inl rfl
        · exact Or.inr (by simp [h2])
      · intro x hx
        rcases List.mem_cons.mp hx with rfl | hx
        · omega
        · exact h4 x hx

theorem mem_walk_filter {env : CacheEnv} (hw : WalkOk env) (fs : FS) (x : Str × File) :
    x ∈ (env.walk fs).filter (fun e => visited env.cacheDir tempDirName e.1) ↔
      x ∈ entries env.cacheDir fs := by
  unfold entries
  rw [List.mem_filter, List.mem_filter, (hw fs).mem_iff]
  rfl

theorem walk_filter_nil {env : CacheEnv} (hw : WalkOk env) (fs : FS)
    (h : (env.walk fs).filter (fun e => visited env.cacheDir tempDirName e.1) = []) :
    entries env.cacheDir fs = [] := by
  rw [List.eq_nil_iff_forall_not_mem]
  intro x hx
  rw [← mem_walk_filter hw, h] at hx
  simp at hx

/-- Specification of one deletion. -/
theorem deleteOne_sat {ff : Nat → Bool} {env : CacheEnv} (hw : WalkOk env) (hs : env.strategy ≠ .none)
    (c : Int) (fs0 : FS) (hwf : fs0.WF) :
    Sat ff (fun s => s = fs0 ∨ ∃ e, BestVictim env.strategy e (entries env.cacheDir fs0) ∧ s = fs0.erase e.1)
      (fun fs => fs = fs0) (deleteOne env c)
      (fun c' fs => ∃ e, BestVictim env.strategy e (entries env.cacheDir fs0) ∧ fs = fs0.erase e.1 ∧
        c' = c - e.2.size)
      (fun fs => fs = fs0 ∧ ((∃ k, ff k = true) ∨ entries env.cacheDir fs0 = [])) := by
  have hrem : ∀ (e : Str × File), BestVictim env.strategy e (entries env.cacheDir fs0) →
      Sat ff (fun s => s = fs0 ∨ ∃ e, BestVictim env.strategy e (entries env.cacheDir fs0) ∧ s = fs0.erase e.1)
        (fun fs => fs = fs0) (do FsM.remove e.1; pure (c - e.2.size))
        (fun c' fs => ∃ e, BestVictim env.strategy e (entries env.cacheDir fs0) ∧ fs = fs0.erase e.1 ∧
          c' = c - e.2.size)
        (fun fs => fs = fs0 ∧ ((∃ k, ff k = true) ∨ entries env.cacheDir fs0 = [])) := by
    intro e he
    refine Sat.bind (R := fun _ fs => fs = fs0.erase e.1) (Sat.prim ?_ ?_) (fun _ => Sat.pure ?_)
    · intro hf fs h; exact ⟨Or.inl h, h, Or.inl hf⟩
    · rintro fs rfl
      have hm : e ∈ entries env.cacheDir fs := he.1
      unfold entries at hm
      rw [List.mem_filter] at hm
      have hget := get_of_mem hwf hm.1
      simp only [visited_ne_nil hm.2, if_false, hget]
      exact ⟨Or.inr ⟨e, he, rfl⟩, trivial⟩
    · rintro fs rfl
      exact ⟨e, he, rfl, rfl⟩
  unfold deleteOne
  cases hst : env.strategy with
  | none => exact absurd hst hs
  | largest =>
    rw [hst] at hrem
    unfold deleteLargestFileFromCache
    refine Sat.bind (R := fun r fs => fs = fs0 ∧
      ∃ f, BestVictim .largest (r.2, f) (entries env.cacheDir fs0) ∧ r.1 = f.size) (Sat.prim ?_ ?_) ?_
    · intro hf fs h; exact ⟨Or.inl h, h, Or.inl hf⟩
    · rintro fs rfl
      cases hl : (env.walk fs).filter (fun e => visited env.cacheDir tempDirName e.1) with
      | nil => exact ⟨Or.inl rfl, rfl, Or.inr (walk_filter_nil hw fs hl)⟩
      | cons a t =>
        obtain ⟨e, h1, h2, h3, h4⟩ := foldl_largerStep t a
        have : (a :: t).foldl largerStep none = some e := h1
        rw [this]
        refine ⟨Or.inl rfl, rfl, e.2, ⟨?_, ?_⟩, rfl⟩
        · rw [← mem_walk_filter hw, hl]
          rcases h2 with rfl | h2 <;> simp [*]
        · intro x hx
          rw [← mem_walk_filter hw, hl] at hx
          rcases List.mem_cons.mp hx with rfl | hx
          · exact h3
          · exact h4 x hx
    · rintro ⟨sz, p⟩
      refine Sat.ofEq ?_
      rintro fs ⟨rfl, f, hf, rfl⟩
      exact hrem (p, f) hf
  | lru =>
    rw [hst] at hrem
    unfold deleteLruFileFromCache
    refine Sat.bind (R := fun r fs => fs = fs0 ∧
      ((∃ f, BestVictim .lru (r.2, f) (entries env.cacheDir fs0) ∧ r.1 = f.size) ∨
        r.2 = [] ∧ entries env.cacheDir fs0 = [])) (Sat.prim ?_ ?_) ?_
    · intro hf fs h; exact ⟨Or.inl h, h, Or.inl hf⟩
    · rintro fs rfl
      cases hl : (env.walk fs).filter (fun e => visited env.cacheDir tempDirName e.1) with
      | nil => exact ⟨Or.inl rfl, rfl, Or.inr ⟨rfl, walk_filter_nil hw fs hl⟩⟩
      | cons a t =>
        obtain ⟨e, h1, h2, h3, h4⟩ := foldl_olderStep t a
        have : (a :: t).foldl olderStep none = some e := h1
        rw [this]
        refine ⟨Or.inl rfl, rfl, Or.inl ⟨e.2, ⟨?_, ?_⟩, rfl⟩⟩
        · rw [← mem_walk_filter hw, hl]
          rcases h2 with rfl | h2 <;> simp [*]
        · intro x hx
          rw [← mem_walk_filter hw, hl] at hx
          rcases List.mem_cons.mp hx with rfl | hx
          · exact h3
          · exact h4 x hx
    · rintro ⟨sz, p⟩
      refine Sat.ofEq ?_
      rintro fs ⟨rfl, ⟨f, hf, rfl⟩ | ⟨rfl, he⟩⟩
      · exact hrem (p, f) hf
      · refine Sat.bind (R := fun _ _ => False) (Sat.prim ?_ ?_) ?_
        · intro hf fs' h; exact ⟨Or.inl h, h, Or.inl hf⟩
        · rintro fs' rfl
          exact ⟨Or.inl rfl, rfl, Or.inr he⟩
        · intro a; exact Sat.pure (fun _ h => h.elim)

/-! ### Sizes -/

/-- Size of the optional file. -/
def osz (o : Option File) : Int := match o with | some f => f.size | none => 0

theorem dirSize_eq (d : Str) (fs : FS) : dirSize d fs = entriesSize d fs + tempSize d fs := by
  unfold dirSize entriesSize tempSize entries
  induction fs with
  | nil => simp [totalSize]
  | cons a t ih =>
    simp only [List.filter_cons]
    cases hv : visited d b!".tmp" a.1 with
    | true =>
      have hu := under_of_visited hv
      simp only [hu, if_true, Bool.not_true, Bool.and_false, Bool.false_eq_true, if_false, totalSize_cons]
      omega
    | false =>
      cases hu : under d a.1 with
      | true =>
        simp only [if_true, Bool.not_false, Bool.and_true, Bool.false_eq_true, if_false, totalSize_cons]
        omega
      | false => simpa using ih

theorem osz_nonneg (o : Option File) : 0 ≤ osz o := by
  cases o with
  | none => exact Int.le_refl _
  | some f => exact size_nonneg f

theorem entriesSize_nonneg (d : Str) (fs : FS) : 0 ≤ entriesSize d fs := totalSize_nonneg _
theorem tempSize_nonneg (d : Str) (fs : FS) : 0 ≤ tempSize d fs := totalSize_nonneg _

section
variable {d : Str} {max net : Int} {st : Strategy} {fs fs' fs'' : FS}

theorem victim_facts (hwf : fs.WF) {e : Str × File} (h : BestVictim st e (entries d fs)) :
    visited d b!".tmp" e.1 = true ∧ fs.get e.1 = some e.2 ∧ e ∈ fs := by
  have hm := h.1
  unfold entries at hm
  rw [List.mem_filter] at hm
  exact ⟨hm.2, get_of_mem hwf hm.1, hm.1⟩

theorem evict_dirSize (hwf : fs.WF) {e : Str × File} (h : BestVictim st e (entries d fs)) :
    dirSize d (fs.erase e.1) = dirSize d fs - e.2.size := by
  obtain ⟨hv, hg, -⟩ := victim_facts hwf h
  unfold dirSize
  rw [totalSize_erase hwf hg, under_of_visited hv]
  simp

theorem evict_entriesSize (hwf : fs.WF) {e : Str × File} (h : BestVictim st e (entries d fs)) :
    entriesSize d (fs.erase e.1) = entriesSize d fs - e.2.size := by
  obtain ⟨hv, hg, -⟩ := victim_facts hwf h
  unfold entriesSize entries
  rw [totalSize_erase hwf hg, hv]
  simp

theorem evict_length (hwf : fs.WF) {e : Str × File} (h : BestVictim st e (entries d fs)) :
    (fs.erase e.1).length < fs.length := by
  obtain ⟨-, -, hm⟩ := victim_facts hwf h
  unfold FS.erase
  rw [List.length_filter_lt_length_iff_exists]
  exact ⟨e, hm, by simp⟩

theorem evictions_trans (h1 : Evictions d max st net fs fs') (h2 : Evictions d max st net fs' fs'') :
    Evictions d max st net fs fs'' := by
  induction h1 with
  | refl => exact h2
  | step hs _ ih => exact .step hs (ih h2)

theorem evictions_facts (h : Evictions d max st net fs fs') (hwf : fs.WF) :
    fs'.WF ∧ tempSize d fs' = tempSize d fs ∧
    (∀ p, visited d b!".tmp" p = false → fs'.get p = fs.get p) ∧
    (∀ p, fs'.get p = fs.get p ∨ (fs'.get p = none ∧ st ≠ .none)) ∧
    (∀ p, entriesSize d fs' + (osz (fs.get p) - osz (fs'.get p)) ≤ entriesSize d fs) ∧
    entriesSize d fs' ≤ entriesSize d fs := by
  induction h with
  | refl fs => exact ⟨hwf, rfl, fun _ _ => rfl, fun _ => Or.inl rfl, fun _ => by omega, Int.le_refl _⟩
  | @step fs fs' fs'' hs _ ih =>
    obtain ⟨-, e, he, rfl⟩ := hs
    obtain ⟨hv, hg, hm⟩ := victim_facts hwf he
    have hst : st ≠ .none := by
      rintro rfl
      exact he.2
    have hE := evict_entriesSize hwf he
    have hD := evict_dirSize hwf he
    have hT : tempSize d (fs.erase e.1) = tempSize d fs := by
      have h1 := dirSize_eq d (fs.erase e.1)
      have h2 := dirSize_eq d fs
      omega
    obtain ⟨i1, i2, i3, i4, i5, i6⟩ := ih (WF_erase hwf _)
    have hsz := size_nonneg e.2
    refine ⟨i1, by omega, ?_, ?_, ?_, by omega⟩
    · intro p hp
      rw [i3 p hp, get_erase_ne]
      rintro rfl
      rw [hv] at hp; cases hp
    · intro p
      by_cases hpe : p = e.1
      · right
        refine ⟨?_, hst⟩
        rcases i4 p with h | h
        · rw [h, hpe, get_erase_self]
        · exact h.1
      · rw [← get_erase_ne (fs := fs) hpe]; exact i4 p
    · intro p
      have := i5 p
      by_cases hpe : p = e.1
      · subst hpe
        rw [get_erase_self] at this
        rw [hg]
        have : osz (some e.2) = e.2.size := rfl
        have : osz none = 0 := rfl
        omega
      · rw [get_erase_ne hpe] at this
        omega

theorem evictions_none_eq (h : Evictions d max .none net fs fs') : fs' = fs := by
  cases h with
  | refl => rfl
  | step hs _ =>
    obtain ⟨-, e, he, -⟩ := hs
    exact he.2.elim

end

/-- Specification of the eviction loop. -/
theorem evictLoop_sat {ff : Nat → Bool} {env : CacheEnv} (hw : WalkOk env) (hs : env.strategy ≠ .none)
    (net : Int) (k : Nat) (c : Int) (fs0 : FS) (hwf : fs0.WF) (hc : c = dirSize env.cacheDir fs0)
    (hk : fs0.length < k) :
    Sat ff (fun s => Evictions env.cacheDir env.maxSize env.strategy net fs0 s)
      (fun fs => fs = fs0) (evictLoop env net k c)
      (fun b fs => b = true ∧ Evictions env.cacheDir env.maxSize env.strategy net fs0 fs ∧
        dirSize env.cacheDir fs + net < env.maxSize)
      (fun fs => Evictions env.cacheDir env.maxSize env.strategy net fs0 fs ∧
        ((∃ k, ff k = true) ∨
          entries env.cacheDir fs = [] ∧ env.maxSize ≤ dirSize env.cacheDir fs + net)) := by
  induction k generalizing c fs0 with
  | zero => omega
  | succ k ih =>
    unfold evictLoop
    by_cases hcond : env.maxSize ≤ c + net
    · rw [if_pos hcond]
      have step : ∀ e, BestVictim env.strategy e (entries env.cacheDir fs0) →
          EvictStep env.cacheDir env.maxSize env.strategy net fs0 (fs0.erase e.1) :=
        fun e he => ⟨hc ▸ hcond, e, he, rfl⟩
      refine Sat.bind (R := fun c' fs => ∃ e, BestVictim env.strategy e (entries env.cacheDir fs0) ∧
        fs = fs0.erase e.1 ∧ c' = c - e.2.size)
        ((Sat.weakenI (deleteOne_sat hw hs c fs0 hwf) ?_).weaken (fun _ h => h) (fun _ _ h => h) ?_) ?_
      · rintro s (rfl | ⟨e, he, rfl⟩)
        · exact .refl _
        · exact .step (step e he) (.refl _)
      · rintro fs ⟨rfl, h⟩
        exact ⟨.refl _, h.imp id (fun h => ⟨h, hc ▸ hcond⟩)⟩
      · intro c'
        refine Sat.ofEq ?_
        rintro fs1 ⟨e, he, rfl, rfl⟩
        have := ih (c - e.2.size) (fs0.erase e.1) (WF_erase hwf _)
          (by rw [evict_dirSize hwf he, hc]) (by have := evict_length hwf he; omega)
        refine (Sat.weakenI this ?_).weaken (fun _ h => h) ?_ ?_
        · intro s h; exact .step (step e he) h
        · rintro b fs ⟨h1, h2, h3⟩; exact ⟨h1, .step (step e he) h2, h3⟩
        · rintro fs ⟨h1, h2⟩; exact ⟨.step (step e he) h1, h2⟩
    · rw [if_neg hcond]
      refine Sat.pure ?_
      rintro fs rfl
      exact ⟨rfl, .refl _, by omega⟩

/-- The size change assumed by a write of `n` bytes: the size of the replaced file is subtracted unless it
could not be determined. -/
def NetOk (ff : Nat → Bool) (n : Int) (old : Option File) (net : Int) : Prop :=
  net = n - osz old ∨ ((∃ k, ff k = true) ∧ net = n)

theorem NetOk.bounds {ff : Nat → Bool} {n net : Int} {old : Option File} (h : NetOk ff n old net) :
    n - osz old ≤ net ∧ net ≤ n := by
  have := osz_nonneg old
  rcases h with h | ⟨-, h⟩ <;> omega

theorem deleteFiles_sat {ff : Nat → Bool} {env : CacheEnv} (hw : WalkOk env) (hs : env.strategy ≠ .none)
    (folder name : Str) (n c : Int) (fs0 : FS) (hwf : fs0.WF) (hc : c = dirSize env.cacheDir fs0) :
    Sat ff (fun s => ∃ net, NetOk ff n (fs0.get (getFilePathInCache env.cacheDir folder name)) net ∧
        Evictions env.cacheDir env.maxSize env.strategy net fs0 s)
      (fun fs => fs = fs0) (deleteFilesFromCacheIfNeeded env folder name n c)
      (fun b fs => b = true ∧ ∃ net, NetOk ff n (fs0.get (getFilePathInCache env.cacheDir folder name)) net ∧
        Evictions env.cacheDir env.maxSize env.strategy net fs0 fs ∧
        dirSize env.cacheDir fs + net < env.maxSize)
      (fun fs => ∃ net, NetOk ff n (fs0.get (getFilePathInCache env.cacheDir folder name)) net ∧
        Evictions env.cacheDir env.maxSize env.strategy net fs0 fs ∧
        ((∃ k, ff k = true) ∨
          entries env.cacheDir fs = [] ∧ env.maxSize ≤ dirSize env.cacheDir fs + net)) := by
  unfold deleteFilesFromCacheIfNeeded
  refine Sat.bind (R := fun o fs => fs = fs0 ∧
    ((∃ k, ff k = true) ∧ o = none ∨ o = fs0.get (getFilePathInCache env.cacheDir folder name)))
    (Sat.attempt_prim ?_ ?_) ?_
  · intro hf fs h
    subst h
    exact ⟨⟨_, Or.inl rfl, .refl _⟩, ⟨rfl, Or.inl ⟨hf, rfl⟩⟩⟩
  · rintro fs rfl
    cases hg : fs.get (getFilePathInCache env.cacheDir folder name) with
    | some f => exact ⟨⟨_, Or.inl rfl, .refl _⟩, rfl, Or.inr rfl⟩
    | none => exact ⟨⟨_, Or.inl rfl, .refl _⟩, ⟨rfl, Or.inr rfl⟩⟩
  · intro o
    refine Sat.ofEq ?_
    rintro fs ⟨rfl, ho⟩
    have hnet : NetOk ff n (fs.get (getFilePathInCache env.cacheDir folder name)) (netOf n o) := by
      rcases ho with ⟨hf, rfl⟩ | rfl
      · exact Or.inr ⟨hf, rfl⟩
      · left
        cases fs.get (getFilePathInCache env.cacheDir folder name) with
        | none => simp [osz, netOf]
        | some f => rfl
    generalize netOf n o = net at hnet ⊢
    refine Sat.bind (R := fun x fs' => x = fs ∧ fs' = fs) ?_ ?_
    · intro m fs' h
      subst h
      exact ⟨by simp [currentState], rfl, rfl⟩
    · intro x
      refine Sat.ofEq ?_
      rintro _ ⟨rfl, rfl⟩
      refine (Sat.weakenI (evictLoop_sat hw hs net _ c _ hwf hc (Nat.lt_succ_self _)) ?_).weaken
        (fun _ h => h) ?_ ?_
      · intro s h; exact ⟨net, hnet, h⟩
      · rintro b fs ⟨h1, h2, h3⟩; exact ⟨h1, net, hnet, h2, h3⟩
      · rintro fs ⟨h1, h2⟩; exact ⟨net, hnet, h1, h2⟩

/-- Specification of the copy into the temp file. -/
theorem copyTo_sat {ff : Nat → Bool} (temp : Str) (now : Int) (bytes : Str) (eof : Bool) (w : Str) (fs0 : FS) :
    Sat ff (fun s => ∃ v, v <+: w ++ bytes ∧ s = fs0.put temp ⟨v, now⟩)
      (fun fs => fs = fs0.put temp ⟨w, now⟩) (copyTo temp now bytes eof)
      (fun _ fs => eof = true ∧ fs = fs0.put temp ⟨w ++ bytes, now⟩)
      (fun fs => (∃ v, v <+: w ++ bytes ∧ fs = fs0.put temp ⟨v, now⟩) ∧ ((∃ k, ff k = true) ∨ eof = false)) := by
  induction bytes generalizing w with
  | nil =>
    cases eof with
    | true => exact Sat.pure (by rintro fs rfl; simp)
    | false => exact Sat.throwErr (by rintro fs rfl; exact ⟨⟨w, by simp, rfl⟩, Or.inr rfl⟩)
  | cons b bs ih =>
    unfold copyTo
    have hi := ih (w ++ [b])
    rw [List.append_assoc, List.singleton_append] at hi
    refine Sat.bind (R := fun _ fs => fs = fs0.put temp ⟨w ++ [b], now⟩) (Sat.prim ?_ ?_) (fun _ => hi)
    · rintro hf fs rfl
      exact ⟨⟨w, by simp, rfl⟩, ⟨w, by simp, rfl⟩, Or.inl hf⟩
    · rintro fs rfl
      simp only [get_put_self, put_put]
      exact ⟨⟨w ++ [b], ⟨bs, by simp⟩, rfl⟩, trivial⟩

/-! ### Writing a file -/

section
variable (ff : Nat → Bool) (env : CacheEnv) (folder filename : Str) (reader : Reader) (rnd : Str) (now : Int)
variable (fs0 : FS)

/-- States during a write before the rename (`s`), and after it (`Done`). -/
def Mid (s : FS) : Prop :=
  s = fs0 ∨
  fs0.get (tempFilepath env filename rnd) = none ∧
  ∃ w net fs2, w <+: reader.bytes ∧
    NetOk ff reader.bytes.length (fs0.get (getFilePathInCache env.cacheDir folder filename)) net ∧
    Evictions env.cacheDir env.maxSize env.strategy net
      (fs0.put (tempFilepath env filename rnd) ⟨w, now⟩) fs2 ∧
    (s = fs2 ∨ s = fs2.erase (tempFilepath env filename rnd))

def Done (s : FS) : Prop :=
  reader.eof = true ∧ fs0.get (tempFilepath env filename rnd) = none ∧
  ∃ net fs2,
    NetOk ff reader.bytes.length (fs0.get (getFilePathInCache env.cacheDir folder filename)) net ∧
    Evictions env.cacheDir env.maxSize env.strategy net
      (fs0.put (tempFilepath env filename rnd) ⟨reader.bytes, now⟩) fs2 ∧
    (env.strategy ≠ .none → dirSize env.cacheDir fs2 + net < env.maxSize) ∧
    s = (fs2.erase (tempFilepath env filename rnd)).put
      (getFilePathInCache env.cacheDir folder filename) ⟨reader.bytes, now⟩

/-- Why a write failed. -/
def Failed (s : FS) : Prop :=
  Mid ff env folder filename reader rnd now fs0 s ∧
  ((∃ k, ff k = true) ∨ reader.eof = false ∨ fs0.get (tempFilepath env filename rnd) ≠ none ∨
    ∃ net fs2, NetOk ff reader.bytes.length (fs0.get (getFilePathInCache env.cacheDir folder filename)) net ∧
      Evictions env.cacheDir env.maxSize env.strategy net
        (fs0.put (tempFilepath env filename rnd) ⟨reader.bytes, now⟩) fs2 ∧
      entries env.cacheDir fs2 = [] ∧ env.maxSize ≤ dirSize env.cacheDir fs2 + net ∧
      env.strategy ≠ .none ∧ entries env.cacheDir s = [])

variable {ff env folder filename reader rnd now fs0}

theorem cacheToFile_sat (hv : ValidKey env folder filename) (hr : Digits rnd) (hw : WalkOk env)
    (hwf : fs0.WF) :
    Sat ff (fun s => Mid ff env folder filename reader rnd now fs0 s ∨
        Done ff env folder filename reader rnd now fs0 s)
      (fun fs => fs = fs0) (cacheToFile env folder filename reader rnd now)
      (fun p fs => p = getFilePathInCache env.cacheDir folder filename ∧
        Done ff env folder filename reader rnd now fs0 fs)
      (fun fs => Failed ff env folder filename reader rnd now fs0 fs) := by
  unfold cacheToFile
  have hne := temp_ne_out (filename' := filename) hv hr
  have hnv := not_visited_temp (env := env) (filename := filename) hr
  generalize hT : tempFilepath env filename rnd = temp at hne hnv
  have hout : getFilePathInCache env.cacheDir folder filename =
    getFilePathInCache env.cacheDir folder filename := rfl
  revert hout
  generalize hO : getFilePathInCache env.cacheDir folder filename = out at hne
  intro _
  -- reformulate
  have hMid0 : Mid ff env folder filename reader rnd now fs0 fs0 := Or.inl rfl
  refine Sat.bind (R := fun _ fs => fs = fs0) (Sat.prim ?_ ?_) fun _ => ?_
  · rintro hf fs rfl; exact ⟨Or.inl hMid0, hMid0, Or.inl hf⟩
  · rintro fs rfl; exact ⟨Or.inl hMid0, rfl⟩
  refine Sat.bind (R := fun _ fs => fs0.get temp = none ∧ fs = fs0.put temp ⟨[], now⟩) (Sat.prim ?_ ?_) fun _ => ?_
  · rintro hf fs rfl; exact ⟨Or.inl hMid0, hMid0, Or.inl hf⟩
  · rintro fs rfl
    cases hg : fs.get temp with
    | some f => exact ⟨Or.inl hMid0, hMid0, Or.inr (Or.inr (Or.inl (by rw [hT, hg]; simp)))⟩
    | none =>
      refine ⟨Or.inl (Or.inr ⟨by rw [hT, hg], [], _, _, by simp, Or.inl rfl, .refl _, Or.inl (by rw [hT])⟩), ?_⟩
      exact ⟨rfl, rfl⟩
  refine Sat.ofEq ?_
  rintro fs1 ⟨hgt, rfl⟩
  -- states before the rename
  have hmid : ∀ w net fs2 s, w <+: reader.bytes → NetOk ff reader.bytes.length (fs0.get out) net →
      Evictions env.cacheDir env.maxSize env.strategy net (fs0.put temp ⟨w, now⟩) fs2 →
      (s = fs2 ∨ s = fs2.erase temp) → Mid ff env folder filename reader rnd now fs0 s := by
    intro w net fs2 s h1 h2 h3 h4
    refine Or.inr ⟨by rw [hT, hgt], w, net, fs2, h1, by rw [hO]; exact h2, by rw [hT]; exact h3, ?_⟩
    rw [hT]; exact h4
  have hwf1 : ∀ w, (fs0.put temp ⟨w, now⟩).WF := fun w => WF_put hwf _ _
  -- failure before the deferred removal
  let E0 : FS → Prop := fun s => ∃ w net, w <+: reader.bytes ∧ NetOk ff reader.bytes.length (fs0.get out) net ∧
      Evictions env.cacheDir env.maxSize env.strategy net (fs0.put temp ⟨w, now⟩) s ∧
      ((∃ k, ff k = true) ∨ reader.eof = false ∨
        w = reader.bytes ∧ entries env.cacheDir s = [] ∧ env.maxSize ≤ dirSize env.cacheDir s + net ∧
        env.strategy ≠ .none)
  have hE0mid : ∀ s, E0 s → Mid ff env folder filename reader rnd now fs0 s := by
    rintro s ⟨w, net, h1, h2, h3, -⟩
    exact hmid w net s s h1 h2 h3 (Or.inl rfl)
  have hE0mid' : ∀ s, E0 s → Mid ff env folder filename reader rnd now fs0 (s.erase temp) := by
    rintro s ⟨w, net, h1, h2, h3, -⟩
    exact hmid w net s _ h1 h2 h3 (Or.inr rfl)
  have hentries : ∀ s : FS, entries env.cacheDir s = [] → entries env.cacheDir (s.erase temp) = [] := by
    intro s hs
    unfold entries FS.erase at *
    rw [List.filter_filter]
    rw [List.filter_eq_nil_iff] at hs ⊢
    intro a ha hh
    exact hs a ha (by simp at hh; exact hh.1)
  have hE0fail : ∀ s s', E0 s → s' = s ∨ s' = s.erase temp → Failed ff env folder filename reader rnd now fs0 s' := by
    intro s s' h0 hs'
    refine ⟨?_, ?_⟩
    · rcases hs' with rfl | rfl
      · exact hE0mid _ h0
      · exact hE0mid' _ h0
    · obtain ⟨w, net, h1, h2, h3, h | h | ⟨rfl, h4, h5, h6⟩⟩ := h0
      · exact Or.inl h
      · exact Or.inr (Or.inl h)
      · refine Or.inr (Or.inr (Or.inr ⟨net, s, by rw [hO]; exact h2, by rw [hT]; exact h3, h4, h5, h6, ?_⟩))
        rcases hs' with rfl | rfl
        · exact h4
        · exact hentries _ h4
  refine Sat.deferred (E0 := E0) (Q0 := fun p fs => p = out ∧ Done ff env folder filename reader rnd now fs0 fs ∧
    fs.get temp = none) ?_ ?_ ?_ ?_
  · -- body
    refine Sat.bind (R := fun _ fs => reader.eof = true ∧ fs = fs0.put temp ⟨reader.bytes, now⟩)
      ((Sat.weakenI (copyTo_sat temp now reader.bytes reader.eof [] fs0) ?_).weaken ?_ ?_ ?_) fun _ => ?_
    · rintro s ⟨v, hv', rfl⟩
      exact Or.inl (hmid v _ _ _ (by simpa using hv') (Or.inl rfl) (.refl _) (Or.inl rfl))
    · rintro fs rfl; rfl
    · rintro a fs ⟨h1, h2⟩; exact ⟨h1, by simpa using h2⟩
    · rintro fs ⟨⟨v, hv', rfl⟩, h⟩
      exact ⟨v, _, by simpa using hv', Or.inl rfl, .refl _, h.imp id Or.inl⟩
    refine Sat.ofEq ?_
    rintro fs1 ⟨heof, rfl⟩
    have hget1 : ∀ w, (fs0.put temp ⟨w, now⟩).get out = fs0.get out := fun w => get_put_ne hne.symm
    have hE0f : ∀ net s, (∃ k, ff k = true) → NetOk ff reader.bytes.length (fs0.get out) net →
        Evictions env.cacheDir env.maxSize env.strategy net (fs0.put temp ⟨reader.bytes, now⟩) s → E0 s :=
      fun net s hf h1 h2 => ⟨reader.bytes, net, by simp, h1, h2, Or.inl hf⟩
    -- eviction
    refine Sat.bind (R := fun _ fs => ∃ net, NetOk ff reader.bytes.length (fs0.get out) net ∧
      Evictions env.cacheDir env.maxSize env.strategy net (fs0.put temp ⟨reader.bytes, now⟩) fs ∧
      (env.strategy ≠ .none → dirSize env.cacheDir fs + net < env.maxSize)) ?_ fun _ => ?_
    · unfold evictIfNeeded
      by_cases hs : env.strategy = .none
      · rw [if_neg (by simpa using hs)]
        refine Sat.pure ?_
        rintro fs rfl
        exact ⟨_, Or.inl rfl, .refl _, fun h => absurd hs h⟩
      · rw [if_pos hs]
        refine Sat.bind (R := fun c fs => fs = fs0.put temp ⟨reader.bytes, now⟩ ∧
          c = dirSize env.cacheDir (fs0.put temp ⟨reader.bytes, now⟩)) (Sat.prim ?_ ?_) fun c => ?_
        · rintro hf fs rfl
          exact ⟨Or.inl (hmid _ _ _ _ (by simp) (Or.inl rfl) (.refl _) (Or.inl rfl)),
            hE0f _ _ hf (Or.inl rfl) (.refl _)⟩
        · rintro fs rfl
          exact ⟨Or.inl (hmid _ _ _ _ (by simp) (Or.inl rfl) (.refl _) (Or.inl rfl)), rfl, rfl⟩
        refine Sat.ofEq ?_
        rintro fs1 ⟨rfl, rfl⟩
        refine Sat.bind (R := fun f fs => fs = fs0.put temp ⟨reader.bytes, now⟩ ∧
          f = ⟨reader.bytes, now⟩) (Sat.prim ?_ ?_) fun f => ?_
        · rintro hf fs rfl
          exact ⟨Or.inl (hmid _ _ _ _ (by simp) (Or.inl rfl) (.refl _) (Or.inl rfl)),
            hE0f _ _ hf (Or.inl rfl) (.refl _)⟩
        · rintro fs rfl
          simp only [get_put_self]
          exact ⟨Or.inl (hmid _ _ _ _ (by simp) (Or.inl rfl) (.refl _) (Or.inl rfl)), trivial, trivial⟩
        refine Sat.ofEq ?_
        rintro fs1 ⟨rfl, rfl⟩
        have hdel := deleteFiles_sat (ff := ff) hw hs folder filename reader.bytes.length _
          (fs0.put temp ⟨reader.bytes, now⟩) (hwf1 _) rfl
        rw [hO, hget1] at hdel
        refine Sat.bind ((Sat.weakenI hdel ?_).weaken (fun _ h => h) (fun _ _ h => h) ?_) fun b => Sat.pure ?_
        · rintro s ⟨net, h1, h2⟩
          exact Or.inl (hmid _ net s s (by simp) h1 h2 (Or.inl rfl))
        · rintro fs ⟨net, h1, h2, h3⟩
          refine ⟨reader.bytes, net, by simp, h1, h2, ?_⟩
          rcases h3 with h | ⟨h, h'⟩
          · exact Or.inl h
          · exact Or.inr (Or.inr ⟨rfl, h, h', hs⟩)
        · rintro fs ⟨-, net, h1, h2, h3⟩
          exact ⟨net, h1, h2, fun _ => h3⟩
    refine Sat.ofEq ?_
    rintro fs2 ⟨net, hn, hev, hfit⟩
    refine Sat.bind (R := fun _ fs => fs = fs2) (Sat.prim ?_ ?_) fun _ => ?_
    · rintro hf fs rfl
      exact ⟨Or.inl (hmid _ net _ _ (by simp) hn hev (Or.inl rfl)), hE0f net _ hf hn hev⟩
    · rintro fs rfl
      exact ⟨Or.inl (hmid _ net _ _ (by simp) hn hev (Or.inl rfl)), rfl⟩
    have hgtemp : fs2.get temp = some ⟨reader.bytes, now⟩ := by
      rw [(evictions_facts hev (hwf1 _)).2.2.1 temp hnv, get_put_self]
    have hdone : Done ff env folder filename reader rnd now fs0 ((fs2.erase temp).put out ⟨reader.bytes, now⟩) := by
      refine ⟨heof, by rw [hT, hgt], net, fs2, by rw [hO]; exact hn, by rw [hT]; exact hev, hfit, by rw [hT, hO]⟩
    refine Sat.bind (R := fun _ fs => Done ff env folder filename reader rnd now fs0 fs ∧ fs.get temp = none)
      (Sat.prim ?_ ?_) fun _ => Sat.pure ?_
    · rintro hf fs rfl
      exact ⟨Or.inl (hmid _ net _ _ (by simp) hn hev (Or.inl rfl)), hE0f net _ hf hn hev⟩
    · rintro fs rfl
      simp only [hgtemp]
      refine ⟨Or.inr hdone, hdone, ?_⟩
      rw [get_put_ne hne, get_erase_self]
    · rintro fs ⟨h, h'⟩; exact ⟨rfl, h, h'⟩
  · -- deferred removal after success: nothing to remove
    intro p
    refine Sat.prim ?_ ?_
    · rintro hf fs ⟨rfl, h, -⟩; exact ⟨Or.inr h, rfl, h⟩
    · rintro fs ⟨rfl, h, hg⟩
      by_cases ht : temp = []
      · simp only [ht, if_true]; exact ⟨Or.inr h, trivial, h⟩
      · simp only [ht, if_false, hg]; exact ⟨Or.inr h, trivial, h⟩
  · -- deferred removal after a failure
    refine Sat.prim ?_ ?_
    · intro hf fs h
      exact ⟨Or.inl (hE0mid _ h), hE0fail _ _ h (Or.inl rfl)⟩
    · intro fs h
      by_cases ht : temp = []
      · simp only [ht, if_true]
        exact ⟨Or.inl (hE0mid _ h), hE0fail _ _ h (Or.inl rfl)⟩
      · simp only [ht, if_false]
        cases fs.get temp with
        | some f => exact ⟨Or.inl (hE0mid' _ h), hE0fail _ _ h (Or.inr rfl)⟩
        | none => exact ⟨Or.inl (hE0mid _ h), hE0fail _ _ h (Or.inl rfl)⟩
  · intro fs h
    exact hE0fail _ _ h (Or.inl rfl)

end

end Verif.Lemmas

namespace Verif.Lemmas

open Verif.Go Verif.Model Verif.Spec FSl

section
variable {ff : Nat → Bool} {env : CacheEnv} {folder filename : Str} {reader : Reader} {rnd : Str} {now : Int}
variable {fs0 : FS}

/-- States during a lookup. -/
def LookupState (env : CacheEnv) (folder filename : Str) (now : Int) (fs0 s : FS) : Prop :=
  let p := getFilePathInCache env.cacheDir folder filename
  s = fs0 ∨ ∃ f, fs0.get p = some f ∧
    ((fileIsOutdated env f now = true ∧ s = fs0.erase p) ∨
     (fileIsOutdated env f now = false ∧ env.strategy = .lru ∧ s = fs0.put p ⟨f.content, now⟩))

theorem getFile_sat (hv : ValidKey env folder filename) :
    Sat ff (LookupState env folder filename now fs0)
      (fun fs => fs = fs0) (getFile env folder filename now)
      (fun r fs => r.1 = getFilePathInCache env.cacheDir folder filename ∧
        match fs0.get r.1 with
        | none => r.2 = false ∧ fs = fs0
        | some f => r.2 = !fileIsOutdated env f now ∧
          (fileIsOutdated env f now = true → fs = fs0.erase r.1) ∧
          (fileIsOutdated env f now = false →
            (env.strategy ≠ .lru ∧ fs = fs0) ∨
            (env.strategy = .lru ∧ (fs = fs0.put r.1 ⟨f.content, now⟩ ∨ (∃ k, ff k = true) ∧ fs = fs0))))
      (fun fs => fs = fs0 ∧ ∃ k, ff k = true) := by
  unfold getFile
  have hpne := visited_ne_nil (visited_out hv)
  generalize hp : getFilePathInCache env.cacheDir folder filename = p at hpne
  have hL0 : LookupState env folder filename now fs0 fs0 := Or.inl rfl
  refine Sat.bind (R := fun o fs => fs = fs0 ∧ o = fs0.get p) (Sat.prim ?_ ?_) fun o => ?_
  · rintro hf fs rfl; exact ⟨hL0, rfl, hf⟩
  · rintro fs rfl; exact ⟨hL0, rfl, rfl⟩
  refine Sat.ofEq ?_
  rintro fs ⟨rfl, rfl⟩
  unfold getFileFound
  cases hg : fs.get p with
  | none =>
    refine Sat.pure ?_
    rintro fs' rfl
    refine ⟨rfl, ?_⟩
    simp only [hg]
    exact ⟨trivial, trivial⟩
  | some f =>
    simp only
    cases ho : fileIsOutdated env f now with
    | true =>
      have hLe : LookupState env folder filename now fs (fs.erase p) := by
        refine Or.inr ⟨f, by rw [hp]; exact hg, Or.inl ⟨ho, by rw [hp]⟩⟩
      have hrm : removeIfOutdated true p = FsM.remove p := rfl
      rw [hrm]
      unfold FsM.remove
      refine Sat.bind (R := fun _ s => s = fs.erase p) (Sat.prim ?_ ?_) fun _ => ?_
      · rintro hf fs' rfl; exact ⟨hL0, rfl, hf⟩
      · rintro fs' rfl
        rw [if_neg hpne]
        simp only [hg]
        exact ⟨hLe, trivial⟩
      refine Sat.bind (R := fun _ s => s = fs.erase p) ?_ fun _ => Sat.pure ?_
      · unfold touchIfLru
        split
        · refine Sat.bind (R := fun _ s => s = fs.erase p) (Sat.attempt_prim ?_ ?_) fun _ => Sat.pure (fun _ h => h)
          · rintro hf fs' rfl; exact ⟨hLe, rfl⟩
          · rintro fs' rfl
            simp only [get_erase_self]
            exact ⟨hLe, trivial⟩
        · exact Sat.pure (fun _ h => h)
      · rintro fs' rfl
        refine ⟨rfl, ?_⟩
        simp only [hg, ho]
        simp
    | false =>
      refine Sat.bind (R := fun _ s => s = fs) (Sat.pure fun _ h => h) fun _ => ?_
      refine Sat.bind (R := fun _ s => (env.strategy ≠ .lru ∧ s = fs) ∨
            (env.strategy = .lru ∧ (s = fs.put p ⟨f.content, now⟩ ∨ (∃ k, ff k = true) ∧ s = fs))) ?_
        fun _ => Sat.pure ?_
      · unfold touchIfLru
        split
        · rename_i hl
          have hLp : LookupState env folder filename now fs (fs.put p ⟨f.content, now⟩) := by
            refine Or.inr ⟨f, by rw [hp]; exact hg, Or.inr ⟨ho, hl, by rw [hp]⟩⟩
          refine Sat.bind (R := fun _ s => s = fs.put p ⟨f.content, now⟩ ∨ (∃ k, ff k = true) ∧ s = fs)
            (Sat.attempt_prim ?_ ?_) fun _ => Sat.pure (fun _ h => Or.inr ⟨hl, h⟩)
          · rintro hf fs' rfl; exact ⟨hL0, Or.inr ⟨hf, rfl⟩⟩
          · rintro fs' rfl
            simp only [hg]
            exact ⟨hLp, Or.inl trivial⟩
        · rename_i hl
          exact Sat.pure (fun _ h => Or.inl ⟨hl, h⟩)
      · intro fs' h
        refine ⟨rfl, ?_⟩
        simp only [hg, ho]
        exact ⟨trivial, by simp, fun _ => h⟩

/-! ### Consequences for states -/

theorem tempSize_put_visited (hwf : fs0.WF) {p : Str} {f : File}
    (h : visited env.cacheDir b!".tmp" p = true) :
    tempSize env.cacheDir (fs0.put p f) = tempSize env.cacheDir fs0 := by
  unfold tempSize
  rw [totalSize_put hwf p f (fun x => under env.cacheDir x && !visited env.cacheDir b!".tmp" x)]
  simp [h]

theorem entriesSize_put (hwf : fs0.WF) (p : Str) (f : File) :
    entriesSize env.cacheDir (fs0.put p f) = entriesSize env.cacheDir fs0 +
      (if visited env.cacheDir b!".tmp" p then f.size - osz (fs0.get p) else 0) := by
  unfold entriesSize entries
  rw [totalSize_put hwf p f (fun x => visited env.cacheDir b!".tmp" x)]
  rfl

theorem entriesSize_erase_le (hwf : fs0.WF) (p : Str) :
    entriesSize env.cacheDir (fs0.erase p) ≤ entriesSize env.cacheDir fs0 := by
  cases hg : fs0.get p with
  | none => rw [erase_of_get_none hg]; exact Int.le_refl _
  | some f =>
    unfold entriesSize entries
    rw [totalSize_erase hwf hg (fun x => visited env.cacheDir b!".tmp" x)]
    have := size_nonneg f
    split <;> omega

theorem tempSize_put_temp (hwf : fs0.WF) {p : Str} {f : File} (hu : under env.cacheDir p = true)
    (h : visited env.cacheDir b!".tmp" p = false) (hg : fs0.get p = none) :
    tempSize env.cacheDir (fs0.put p f) = tempSize env.cacheDir fs0 + f.size := by
  unfold tempSize
  rw [totalSize_put hwf p f (fun x => under env.cacheDir x && !visited env.cacheDir b!".tmp" x)]
  simp [h, hu, hg]

theorem mid_facts (_hv : ValidKey env folder filename) (hr : Digits rnd) (hwf : fs0.WF) {s : FS}
    (h : Mid ff env folder filename reader rnd now fs0 s) :
    s.WF ∧ entriesSize env.cacheDir s ≤ entriesSize env.cacheDir fs0 ∧
    ∀ p, p ≠ tempFilepath env filename rnd →
      s.get p = fs0.get p ∨ (s.get p = none ∧ env.strategy ≠ .none ∧ visited env.cacheDir b!".tmp" p = true) := by
  rcases h with rfl | ⟨hgt, w, net, fs2, -, -, hev, hs⟩
  · exact ⟨hwf, Int.le_refl _, fun p _ => Or.inl rfl⟩
  · have hwf1 := WF_put hwf (tempFilepath env filename rnd) ⟨w, now⟩
    obtain ⟨f1, f2, f3, f4, f5, f6⟩ := evictions_facts hev hwf1
    have hnv := not_visited_temp (env := env) (filename := filename) hr
    have hes : entriesSize env.cacheDir (fs0.put (tempFilepath env filename rnd) ⟨w, now⟩) =
        entriesSize env.cacheDir fs0 := by
      rw [entriesSize_put hwf, hnv]; simp
    have hget : ∀ p, p ≠ tempFilepath env filename rnd →
        fs2.get p = fs0.get p ∨ (fs2.get p = none ∧ env.strategy ≠ .none ∧ visited env.cacheDir b!".tmp" p = true) := by
      intro p hp
      cases hvp : visited env.cacheDir b!".tmp" p with
      | false => left; rw [f3 p hvp, get_put_ne hp]
      | true =>
        rcases f4 p with h | h
        · left; rw [h, get_put_ne hp]
        · right; exact ⟨h.1, h.2, rfl⟩
    rcases hs with rfl | rfl
    · exact ⟨f1, by omega, hget⟩
    · refine ⟨WF_erase f1 _, ?_, ?_⟩
      · have := entriesSize_erase_le (env := env) f1 (tempFilepath env filename rnd)
        omega
      · intro p hp
        rw [get_erase_ne hp]; exact hget p hp

theorem done_facts (hv : ValidKey env folder filename) (hr : Digits rnd) (hwf : fs0.WF) {s : FS}
    (h : Done ff env folder filename reader rnd now fs0 s) :
    s.WF ∧ s.get (getFilePathInCache env.cacheDir folder filename) = some ⟨reader.bytes, now⟩ ∧
    s.get (tempFilepath env filename rnd) = none ∧
    (env.strategy ≠ .none → entriesSize env.cacheDir fs0 < env.maxSize →
      entriesSize env.cacheDir s < env.maxSize) ∧
    ∀ p, p ≠ tempFilepath env filename rnd → p ≠ getFilePathInCache env.cacheDir folder filename →
      s.get p = fs0.get p ∨ (s.get p = none ∧ env.strategy ≠ .none ∧ visited env.cacheDir b!".tmp" p = true) := by
  obtain ⟨heof, hgt, net, fs2, hn, hev, hfit, rfl⟩ := h
  have hmid := mid_facts (s := fs2.erase (tempFilepath env filename rnd)) hv hr hwf
    (Or.inr ⟨hgt, _, net, fs2, by simp, hn, hev, Or.inr rfl⟩)
  obtain ⟨m1, m2, m3⟩ := hmid
  have hne := temp_ne_out (filename' := filename) hv hr
  refine ⟨WF_put m1 _ _, get_put_self _ _ _, ?_, ?_, ?_⟩
  · rw [get_put_ne hne, get_erase_self]
  · intro hst h0
    have hfit := hfit hst
    have hwf1 := WF_put hwf (tempFilepath env filename rnd) ⟨reader.bytes, now⟩
    obtain ⟨f1, f2, f3, f4, f5, f6⟩ := evictions_facts hev hwf1
    have hnv := not_visited_temp (env := env) (filename := filename) hr
    have hut := under_temp (env := env) (filename := filename) hr
    have hes : entriesSize env.cacheDir (fs0.put (tempFilepath env filename rnd) ⟨reader.bytes, now⟩) =
        entriesSize env.cacheDir fs0 := by
      rw [entriesSize_put hwf, hnv]; simp
    have hts := tempSize_put_temp (env := env) (f := ⟨reader.bytes, now⟩) hwf hut hnv hgt
    have htn := tempSize_nonneg env.cacheDir fs0
    have hd := dirSize_eq env.cacheDir fs2
    have hb := hn.bounds
    have hsz : (File.mk reader.bytes now).size = (reader.bytes.length : Int) := rfl
    have hoz := osz_nonneg (fs0.get (getFilePathInCache env.cacheDir folder filename))
    rw [entriesSize_put m1, visited_out hv, if_pos rfl, get_erase_ne hne.symm]
    have he2 := entriesSize_erase_le (env := env) f1 (tempFilepath env filename rnd)
    have hoz2 := osz_nonneg (fs2.get (getFilePathInCache env.cacheDir folder filename))
    have h5 := f5 (getFilePathInCache env.cacheDir folder filename)
    rw [get_put_ne hne.symm] at h5
    rcases f4 (getFilePathInCache env.cacheDir folder filename) with h | ⟨h, -⟩
    · rw [get_put_ne hne.symm] at h
      rw [h]
      omega
    · rw [h] at h5 ⊢
      have : osz none = 0 := rfl
      omega
  · intro p h1 h2
    rw [get_put_ne h2]
    exact m3 p h1

theorem lookup_facts (hv : ValidKey env folder filename) (hwf : fs0.WF) {s : FS}
    (h : LookupState env folder filename now fs0 s) :
    s.WF ∧ entriesSize env.cacheDir s ≤ entriesSize env.cacheDir fs0 ∧
    (∀ p, p ≠ getFilePathInCache env.cacheDir folder filename → s.get p = fs0.get p) ∧
    (∀ f, s.get (getFilePathInCache env.cacheDir folder filename) = some f →
      ∃ g, fs0.get (getFilePathInCache env.cacheDir folder filename) = some g ∧ f.content = g.content) := by
  rcases h with rfl | ⟨f, hg, ⟨-, rfl⟩ | ⟨-, -, rfl⟩⟩
  · exact ⟨hwf, Int.le_refl _, fun _ _ => rfl, fun f hf => ⟨f, hf, rfl⟩⟩
  · refine ⟨WF_erase hwf _, entriesSize_erase_le hwf _, fun p hp => get_erase_ne hp, ?_⟩
    intro f' hf'
    rw [get_erase_self] at hf'; cases hf'
  · refine ⟨WF_put hwf _ _, ?_, fun p hp => get_put_ne hp, ?_⟩
    · rw [entriesSize_put hwf, visited_out hv, if_pos rfl, hg]
      have : (File.mk f.content now).size = osz (some f) := rfl
      omega
    · intro f' hf'
      rw [get_put_self] at hf'
      cases hf'
      exact ⟨f, hg, rfl⟩

/-! ### Consequences for complete and killed runs -/

theorem sat_log {α : Type} {I P E : FS → Prop} {m : FsM α} {Q : α → FS → Prop} (h : Sat ff I P m Q E) (n : Nat)
    {fs s : FS} (hp : P fs) (hs : s ∈ (m ff n fs).log) : I s := (h n fs hp).1 s hs

theorem sat_ok {α : Type} {I P E : FS → Prop} {m : FsM α} {Q : α → FS → Prop} (h : Sat ff I P m Q E) (n : Nat)
    {fs : FS} {a : α} (hp : P fs) (hr : (m ff n fs).res = .ok a) : Q a (m ff n fs).fs := by
  have := (h n fs hp).2
  rw [hr] at this
  exact this

theorem sat_fail {α : Type} {I P E : FS → Prop} {m : FsM α} {Q : α → FS → Prop} (h : Sat ff I P m Q E) (n : Nat)
    {fs : FS} (hp : P fs) (hr : (m ff n fs).res.isOk = false) : E (m ff n fs).fs := by
  have := (h n fs hp).2
  cases hh : (m ff n fs).res with
  | ok a => rw [hh] at hr; cases hr
  | err => rw [hh] at this; exact this
  | panic => rw [hh] at this; exact this
  | fatal => rw [hh] at this; exact this

theorem write_state (hv : ValidKey env folder filename) (hr : Digits rnd) (hw : WalkOk env) (hwf : fs0.WF)
    (n : Nat) : 
    Mid ff env folder filename reader rnd now fs0 (cacheToFile env folder filename reader rnd now ff n fs0).fs ∨
    Done ff env folder filename reader rnd now fs0 (cacheToFile env folder filename reader rnd now ff n fs0).fs := by
  have h := cacheToFile_sat (ff := ff) (reader := reader) (now := now) hv hr hw hwf
  cases hh : (cacheToFile env folder filename reader rnd now ff n fs0).res.isOk with
  | true =>
    cases hres : (cacheToFile env folder filename reader rnd now ff n fs0).res with
    | ok a => exact Or.inr (sat_ok h n rfl hres).2
    | err => rw [hres] at hh; cases hh
    | panic => rw [hres] at hh; cases hh
    | fatal => rw [hres] at hh; cases hh
  | false => exact Or.inl (sat_fail h n rfl hh).1

theorem lookup_state (hv : ValidKey env folder filename) (n : Nat) :
    LookupState env folder filename now fs0 (getFile env folder filename now ff n fs0).fs := by
  have h := getFile_sat (ff := ff) (now := now) (fs0 := fs0) hv
  cases hres : (getFile env folder filename now ff n fs0).res with
  | ok a =>
    obtain ⟨h1, h2⟩ := sat_ok h n rfl hres
    cases hg : fs0.get (getFilePathInCache env.cacheDir folder filename) with
    | none => rw [h1, hg] at h2; exact Or.inl h2.2
    | some f =>
      rw [h1, hg] at h2
      obtain ⟨-, h3, h4⟩ := h2
      cases ho : fileIsOutdated env f now with
      | true => exact Or.inr ⟨f, hg, Or.inl ⟨ho, h3 ho⟩⟩
      | false =>
        rcases h4 ho with ⟨-, h⟩ | ⟨hl, h | ⟨-, h⟩⟩
        · exact Or.inl h
        · exact Or.inr ⟨f, hg, Or.inr ⟨ho, hl, h⟩⟩
        · exact Or.inl h
  | err => exact Or.inl (sat_fail h n rfl (by rw [hres]; rfl)).1
  | panic => exact Or.inl (sat_fail h n rfl (by rw [hres]; rfl)).1
  | fatal => exact Or.inl (sat_fail h n rfl (by rw [hres]; rfl)).1

end
end Verif.Lemmas
