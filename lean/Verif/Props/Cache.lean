import Verif.Lemmas.Cache

/-! # C01 – C08: the cache

`ff : Nat → Bool` tells which file-system operations fail (all combinations are covered), `n` is the number
of operations executed before, `fs` the state of the disk (`WF`: every path exists once). -/

namespace Verif.Props

open Verif.Go Verif.Model Verif.Spec Verif.Lemmas FSl

/-! Concrete data for the examples. -/

def demoEnv (st : Strategy) : CacheEnv := ⟨b!"/c", 10, 60, st, id⟩

/-- Two cached files of 4 and 3 bytes, the larger one being newer. -/
def demoFs : FS := [(b!"/c/images/a", ⟨b!"aaaa", 5⟩), (b!"/c/html/b", ⟨b!"bbb", 2⟩)]

theorem demo_key (st : Strategy) : ValidKey (demoEnv st) b!"images" b!"x" :=
  ⟨cache_folders_plain _ (by decide), by decide, by decide, by show (cleanElems b!"/c").getLast? ≠ _; decide⟩

theorem demo_digits : Digits b!"123" := ⟨by decide, by decide⟩

theorem demo_walk (st : Strategy) : WalkOk (demoEnv st) := fun l => List.Perm.refl l

theorem demo_wf : demoFs.WF := by unfold FS.WF; decide

/-- No operation fails. -/
def noFaults : Nat → Bool := fun _ => false

section
variable (env : CacheEnv) (folder name : Str) (reader : Reader) (rnd : Str) (now : Int)
variable (ff : Nat → Bool) (n : Nat) (fs : FS)

/-- **C01** At every crash point of a write (every state between two operations of the file system, and the
final state) the entry is unchanged, missing, or has exactly the complete new content. -/
theorem C01_write_crash_atomic (hw : WalkOk env) (hv : ValidKey env folder name) (hr : Digits rnd) (hwf : fs.WF) :
    ∀ s ∈ (cacheToFile env folder name reader rnd now ff n fs).log ++
        [(cacheToFile env folder name reader rnd now ff n fs).fs],
      let entry := getFilePathInCache env.cacheDir folder name
      s.get entry = fs.get entry ∨ s.get entry = none ∨
        (reader.eof = true ∧ ∃ f, s.get entry = some f ∧ f.content = reader.bytes) := by
  intro s hs entry
  have hmd : Mid ff env folder name reader rnd now fs s ∨ Done ff env folder name reader rnd now fs s := by
    rcases List.mem_append.mp hs with hs | hs
    · exact sat_log (cacheToFile_sat (ff := ff) (reader := reader) (now := now) hv hr hw hwf) n rfl hs
    · rw [List.mem_singleton] at hs
      subst hs
      exact write_state hv hr hw hwf n
  rcases hmd with h | h
  · rcases (mid_facts hv hr hwf h).2.2 entry (temp_ne_out hv hr).symm with h | h
    · exact Or.inl h
    · exact Or.inr (Or.inl h.1)
  · exact Or.inr (Or.inr ⟨h.1, _, (done_facts hv hr hwf h).2.1, rfl⟩)

/-- **C01** (frame) At every crash point every other file is unchanged, except that with an eviction strategy
cached files may be gone. Only the temp file of the write itself is different. -/
theorem C01_write_frame (hw : WalkOk env) (hv : ValidKey env folder name) (hr : Digits rnd) (hwf : fs.WF) :
    ∀ s ∈ (cacheToFile env folder name reader rnd now ff n fs).log ++
        [(cacheToFile env folder name reader rnd now ff n fs).fs],
      ∀ p, p ≠ tempFilepath env name rnd → p ≠ getFilePathInCache env.cacheDir folder name →
        s.get p = fs.get p ∨
        (s.get p = none ∧ env.strategy ≠ .none ∧ visited env.cacheDir b!".tmp" p = true) := by
  intro s hs p h1 h2
  have hmd : Mid ff env folder name reader rnd now fs s ∨ Done ff env folder name reader rnd now fs s := by
    rcases List.mem_append.mp hs with hs | hs
    · exact sat_log (cacheToFile_sat (ff := ff) (reader := reader) (now := now) hv hr hw hwf) n rfl hs
    · rw [List.mem_singleton] at hs
      subst hs
      exact write_state hv hr hw hwf n
  rcases hmd with h | h
  · exact (mid_facts hv hr hwf h).2.2 p h1
  · exact (done_facts hv hr hwf h).2.2.2.2 p h1 h2

/-- **C01** (success) A write that reports success returns the path of the entry, the entry has exactly the
content of the reader, which was read to its end, and no temp file is left. -/
theorem C01_write_success (hw : WalkOk env) (hv : ValidKey env folder name) (hr : Digits rnd) (hwf : fs.WF)
    (p : Str) (hok : (cacheToFile env folder name reader rnd now ff n fs).res = .ok p) :
    p = getFilePathInCache env.cacheDir folder name ∧ reader.eof = true ∧
    (cacheToFile env folder name reader rnd now ff n fs).fs.get p = some ⟨reader.bytes, now⟩ ∧
    (cacheToFile env folder name reader rnd now ff n fs).fs.get (tempFilepath env name rnd) = none := by
  have h := sat_ok (cacheToFile_sat (ff := ff) (reader := reader) (now := now) hv hr hw hwf) n rfl hok
  obtain ⟨rfl, hd⟩ := h
  exact ⟨rfl, hd.1, (done_facts hv hr hwf hd).2.1, (done_facts hv hr hwf hd).2.2.1⟩

/-- **C01** (failure) A write that does not report success leaves the entry unchanged or missing. -/
theorem C01_write_failure (hw : WalkOk env) (hv : ValidKey env folder name) (hr : Digits rnd) (hwf : fs.WF)
    (hfail : (cacheToFile env folder name reader rnd now ff n fs).res.isOk = false) :
    let entry := getFilePathInCache env.cacheDir folder name
    (cacheToFile env folder name reader rnd now ff n fs).fs.get entry = fs.get entry ∨
    ((cacheToFile env folder name reader rnd now ff n fs).fs.get entry = none ∧ env.strategy ≠ .none) := by
  intro entry
  have h := sat_fail (cacheToFile_sat (ff := ff) (reader := reader) (now := now) hv hr hw hwf) n rfl hfail
  rcases (mid_facts hv hr hwf h.1).2.2 entry (temp_ne_out hv hr).symm with h | h
  · exact Or.inl h
  · exact Or.inr ⟨h.1, h.2.1⟩

/-- The function does not end the program. -/
def NoExit {α : Type} (m : FsM α) : Prop := ∀ ff n fs, (m ff n fs).res ≠ .fatal

theorem noExit_bind {α β : Type} {m : FsM α} {f : α → FsM β} (h1 : NoExit m) (h2 : ∀ a, NoExit (f a)) : NoExit (m >>= f) := by
  intro ff n fs h
  have e : (m >>= f) = FsM.bind m f := rfl
  rw [e] at h
  unfold FsM.bind at h
  have h3 := h1 ff n fs
  cases hr : (m ff n fs).res with
  | ok a => simp only [hr] at h; exact h2 a _ _ _ h
  | err => simp only [hr] at h; cases h
  | panic => simp only [hr] at h; cases h
  | fatal => exact h3 hr

theorem noExit_pure {α : Type} (a : α) : NoExit (pure a : FsM α) := fun _ _ _ h => by cases h

theorem noExit_prim {α : Type} {f : FS → Res α × FS} (h : ∀ fs, (f fs).1 ≠ .fatal) : NoExit (FsM.prim f) := by
  intro ff n fs hx
  unfold FsM.prim at hx
  split at hx
  · cases hx
  · exact h fs hx

theorem noExit_attempt {α : Type} {m : FsM α} (h : NoExit m) : NoExit (FsM.attempt m) := by
  intro ff n fs hx
  unfold FsM.attempt at hx
  have h3 := h ff n fs
  cases hr : (m ff n fs).res with
  | fatal => exact h3 hr
  | _ => simp only [hr] at hx; cases hx

theorem noExit_remove (p : Str) : NoExit (FsM.remove p) := by
  refine noExit_prim fun fs h => ?_
  split at h
  · cases h
  · split at h <;> cases h

theorem noExit_deleteOne {env : CacheEnv} (hs : env.strategy ≠ .none) (c : Int) : NoExit (deleteOne env c) := by
  unfold deleteOne
  split
  · refine noExit_bind (noExit_prim fun fs h => ?_) fun _ => noExit_bind (noExit_remove _) fun _ => noExit_pure _
    split at h <;> cases h
  · refine noExit_bind (noExit_prim fun fs h => ?_) fun _ => noExit_bind (noExit_remove _) fun _ => noExit_pure _
    split at h <;> cases h
  · next h => exact absurd h hs

theorem noExit_evictLoop {env : CacheEnv} (hs : env.strategy ≠ .none) (net : Int) : ∀ k c, NoExit (evictLoop env net k c) := by
  intro k
  induction k with
  | zero => intro c; unfold evictLoop; split <;> exact noExit_pure _
  | succ k ih =>
    intro c
    unfold evictLoop
    split
    · exact noExit_bind (noExit_deleteOne hs c) ih
    · exact noExit_pure _

theorem noExit_copyTo (temp : Str) (now : Int) : ∀ bytes eof, NoExit (copyTo temp now bytes eof) := by
  intro bytes
  induction bytes with
  | nil =>
    intro eof
    cases eof
    · exact fun _ _ _ h => by cases h
    · exact noExit_pure _
  | cons b bytes ih =>
    intro eof
    unfold copyTo
    refine noExit_bind (noExit_prim fun fs h => ?_) fun _ => ih eof
    split at h <;> cases h

theorem noExit_stat (p : Str) : NoExit (FsM.stat p) :=
  noExit_prim fun fs h => by split at h <;> cases h

theorem noExit_evictIfNeeded (env : CacheEnv) (folder name temp : Str) : NoExit (evictIfNeeded env folder name temp) := by
  unfold evictIfNeeded
  split
  · next hs =>
    refine noExit_bind (noExit_prim fun fs h => by cases h) fun _ => noExit_bind (noExit_stat _) fun _ => noExit_bind ?_ fun _ => noExit_pure _
    exact noExit_bind (noExit_attempt (noExit_stat _)) fun _ => noExit_bind (fun _ _ _ h => by cases h) fun _ =>
      noExit_evictLoop hs _ _ _
  · exact noExit_pure _

/-- **C01** (temp file) Whatever happens during a write - the reader breaks off, the file does not fit, operations of
the file system fail - there is no temp file afterwards, if the last operation (its removal) does not fail. -/
theorem C01_no_temp_file_left (hnew : fs.get (tempFilepath env name rnd) = none)
    (hlast : ff ((cacheToFile env folder name reader rnd now ff n fs).step - 1) = false) :
    (cacheToFile env folder name reader rnd now ff n fs).fs.get (tempFilepath env name rnd) = none := by
  have hne : tempFilepath env name rnd ≠ [] := by
    unfold tempFilepath
    simp
  have key : ∀ (m : FsM Str), NoExit m → ∀ n fs,
      ff ((FsM.deferred m (FsM.remove (tempFilepath env name rnd)) ff n fs).step - 1) = false →
      (FsM.deferred m (FsM.remove (tempFilepath env name rnd)) ff n fs).fs.get (tempFilepath env name rnd) = none := by
    intro m hm n fs hl
    unfold FsM.deferred at hl ⊢
    have hm := hm ff n fs
    generalize m ff n fs = o at hl hm ⊢
    have hrem : ∀ k fs, ff ((FsM.remove (tempFilepath env name rnd) ff k fs).step - 1) = false →
        (FsM.remove (tempFilepath env name rnd) ff k fs).fs.get (tempFilepath env name rnd) = none := by
      intro k fs hk
      unfold FsM.remove FsM.prim at hk ⊢
      by_cases hf : ff k = true
      · rw [if_pos hf] at hk
        simp [hf] at hk
      · rw [if_neg hf]
        simp only [if_neg hne]
        cases hg : fs.get (tempFilepath env name rnd) with
        | none => exact hg
        | some f => exact get_erase_self _ _
    cases hr : o.res with
    | fatal => exact absurd hr hm
    | ok a => simp only [hr] at hl ⊢; exact hrem _ _ hl
    | err => simp only [hr] at hl ⊢; exact hrem _ _ hl
    | panic => simp only [hr] at hl ⊢; exact hrem _ _ hl
  have hbody : NoExit (do
      copyTo (tempFilepath env name rnd) now reader.bytes reader.eof
      evictIfNeeded env folder name (tempFilepath env name rnd)
      FsM.close (tempFilepath env name rnd)
      FsM.rename (tempFilepath env name rnd) (getFilePathInCache env.cacheDir folder name)
      pure (getFilePathInCache env.cacheDir folder name)) :=
    noExit_bind (noExit_copyTo _ _ _ _) fun _ => noExit_bind (noExit_evictIfNeeded _ _ _ _) fun _ =>
      noExit_bind (noExit_prim fun fs h => by cases h) fun _ =>
      noExit_bind (noExit_prim fun fs h => by split at h <;> cases h) fun _ => noExit_pure _
  have key := key _ hbody (n + 1 + 1) (fs.put (tempFilepath env name rnd) ⟨[], now⟩)
  by_cases h0 : ff n = true
  · simpa [cacheToFile, bind, FsM.bind, FsM.mkdirAll, FsM.prim, h0] using hnew
  · by_cases h1 : ff (n + 1) = true
    · simpa [cacheToFile, bind, FsM.bind, FsM.mkdirAll, FsM.createTemp, FsM.prim, h0, h1] using hnew
    · simp only [cacheToFile, bind, FsM.bind, FsM.mkdirAll, FsM.createTemp, FsM.prim, h0, h1, hnew, Bool.false_eq_true, if_false] at hlast ⊢
      exact key hlast

/-- A download that breaks off leaves no temp file. -/
example : (cacheToFile (demoEnv .lru) b!"images" b!"x" ⟨b!"xyz", false⟩ b!"123" 9 noFaults 0 demoFs).res = .err ∧
    demoFs.get (tempFilepath (demoEnv .lru) b!"x" b!"123") = none := by decide

end

/-- A write of 3 bytes to a cache with two files has 15 crash points; the hypotheses are satisfiable. -/
example : (cacheToFile (demoEnv .lru) b!"images" b!"x" ⟨b!"xyz", true⟩ b!"123" 9 noFaults 0 demoFs).log.length = 15
    ∧ (cacheToFile (demoEnv .lru) b!"images" b!"x" ⟨b!"xyz", true⟩ b!"123" 9 noFaults 0 demoFs).res =
      .ok b!"/c/images/x" := by decide

/-- **C02** Starting below the limit, every history of writes and lookups - with arbitrary names, contents,
results and failing file operations, and killed at arbitrary points - stays below the limit. -/
theorem C02_cache_stays_below_limit (env : CacheEnv) (hw : WalkOk env) (hs : env.strategy ≠ .none)
    {fs fs' : FS} (hwf : fs.WF) (h0 : entriesSize env.cacheDir fs < env.maxSize)
    (hist : CacheHistory env fs fs') : entriesSize env.cacheDir fs' < env.maxSize := by
  suffices h : fs'.WF ∧ entriesSize env.cacheDir fs' < env.maxSize from h.2
  induction hist with
  | refl => exact ⟨hwf, h0⟩
  | step _ hst ih =>
    obtain ⟨hwf', h'⟩ := ih
    have key : ∀ {folder name reader rnd now ff fs1 s}, ValidKey env folder name → Digits rnd → fs1.WF →
        entriesSize env.cacheDir fs1 < env.maxSize →
        Mid ff env folder name reader rnd now fs1 s ∨ Done ff env folder name reader rnd now fs1 s →
        s.WF ∧ entriesSize env.cacheDir s < env.maxSize := by
      intro folder name reader rnd now ff fs1 s hv hr hwf1 hlt hmd
      rcases hmd with h | h
      · have := mid_facts hv hr hwf1 h
        exact ⟨this.1, by omega⟩
      · have := done_facts hv hr hwf1 h
        exact ⟨this.1, this.2.2.2.1 hs hlt⟩
    cases hst with
    | write hv hr => exact key hv hr hwf' h' (write_state hv hr hw hwf' _)
    | writeKilled hv hr hm => exact key hv hr hwf' h' (sat_log (cacheToFile_sat hv hr hw hwf') _ rfl hm)
    | @lookup folder name now ff n _ hv =>
      have := lookup_facts hv hwf' (lookup_state (ff := ff) (now := now) hv n)
      exact ⟨this.1, by omega⟩
    | @lookupKilled folder name now ff n _ _ hv hm =>
      have := lookup_facts hv hwf' (sat_log (getFile_sat hv) n rfl hm)
      exact ⟨this.1, by omega⟩

example : CacheHistory (demoEnv .largest) demoFs
      (cacheToFile (demoEnv .largest) b!"images" b!"x" ⟨b!"xyz", true⟩ b!"123" 9 noFaults 0 demoFs).fs ∧
    entriesSize b!"/c" demoFs = 7 ∧
    entriesSize b!"/c" (cacheToFile (demoEnv .largest) b!"images" b!"x" ⟨b!"xyz", true⟩ b!"123" 9 noFaults 0 demoFs).fs
      = 6 :=
  ⟨.step (.refl _) (.write (demo_key _) demo_digits), by decide, by decide⟩

section
variable (env : CacheEnv) (folder name : Str) (newSize : Int) (ff : Nat → Bool) (n : Nat) (fs : FS)

/-- **C03** (termination) The eviction loop ends: the iteration bound of the model (number of files plus one)
is never reached. -/
theorem C03_eviction_terminates (hw : WalkOk env) (hs : env.strategy ≠ .none) (hwf : fs.WF) :
    (deleteFilesFromCacheIfNeeded env folder name newSize (dirSize env.cacheDir fs) ff n fs).res ≠ .ok false := by
  intro h
  have := sat_ok (deleteFiles_sat (ff := ff) hw hs folder name newSize _ fs hwf rfl) n rfl h
  exact absurd this.1 (by decide)

/-- **C03/C04** (order and minimality) Whatever happens, the files are changed by a sequence of evictions each
of which was necessary at that moment and removed exactly one best victim (largest / least recently used
cached file, never a temporary file). After a success the new file fits. `net` is the number of additional
bytes: the size of the new file minus that of the file it replaces. -/
theorem C03_evictions_necessary_and_ordered (hw : WalkOk env) (hs : env.strategy ≠ .none) (hwf : fs.WF) :
    let o := deleteFilesFromCacheIfNeeded env folder name newSize (dirSize env.cacheDir fs) ff n fs
    let oldSize := ((fs.get (getFilePathInCache env.cacheDir folder name)).map File.size).getD 0
    ∃ net, (net = newSize - oldSize ∨ (net = newSize ∧ ∃ k, ff k = true)) ∧
      Evictions env.cacheDir env.maxSize env.strategy net fs o.fs ∧
      (o.res.isOk = true → dirSize env.cacheDir o.fs + net < env.maxSize) := by
  intro o oldSize
  have h := deleteFiles_sat (ff := ff) hw hs folder name newSize _ fs hwf rfl
  have hnet : ∀ net, NetOk ff newSize (fs.get (getFilePathInCache env.cacheDir folder name)) net →
      (net = newSize - oldSize ∨ (net = newSize ∧ ∃ k, ff k = true)) := by
    rintro net (h | ⟨h, h'⟩)
    · left
      rw [h]
      show newSize - osz _ = newSize - ((fs.get (getFilePathInCache env.cacheDir folder name)).map File.size).getD 0
      cases fs.get (getFilePathInCache env.cacheDir folder name) <;> rfl
    · exact Or.inr ⟨h', h⟩
  have hbad : o.res.isOk = false → ∃ net, (net = newSize - oldSize ∨ (net = newSize ∧ ∃ k, ff k = true)) ∧
      Evictions env.cacheDir env.maxSize env.strategy net fs o.fs ∧
      (o.res.isOk = true → dirSize env.cacheDir o.fs + net < env.maxSize) := by
    intro hb
    obtain ⟨net, h1, h2, -⟩ := sat_fail h n rfl hb
    exact ⟨net, hnet net h1, h2, fun h => by rw [hb] at h; cases h⟩
  cases hr : o.res with
  | ok b =>
    obtain ⟨-, net, h1, h2, h3⟩ := sat_ok h n rfl hr
    exact ⟨net, hnet net h1, h2, fun _ => h3⟩
  | err => rw [hr] at hbad; exact hbad rfl
  | panic => rw [hr] at hbad; exact hbad rfl
  | fatal => rw [hr] at hbad; exact hbad rfl

/-- **C03** (nothing needless) When the file fits, a write changes no other file. (The size of the new file is
counted twice because its temp file lies within the cache directory, see C05.) -/
theorem C03_nothing_evicted_when_it_fits (reader : Reader) (rnd : Str) (now : Int)
    (hw : WalkOk env) (hv : ValidKey env folder name) (hr : Digits rnd) (hwf : fs.WF)
    (hfit : dirSize env.cacheDir fs + 2 * reader.bytes.length < env.maxSize) :
    ∀ p, p ≠ tempFilepath env name rnd → p ≠ getFilePathInCache env.cacheDir folder name →
      (cacheToFile env folder name reader rnd now ff n fs).fs.get p = fs.get p := by
  intro p h1 h2
  have hnv := not_visited_temp (env := env) (filename := name) hr
  have hut := under_temp (env := env) (filename := name) hr
  have hnone : ∀ (w : Str) net fs2, fs.get (tempFilepath env name rnd) = none → w <+: reader.bytes →
      NetOk ff reader.bytes.length (fs.get (getFilePathInCache env.cacheDir folder name)) net →
      Evictions env.cacheDir env.maxSize env.strategy net (fs.put (tempFilepath env name rnd) ⟨w, now⟩) fs2 →
      fs2 = fs.put (tempFilepath env name rnd) ⟨w, now⟩ := by
    intro w net fs2 hg hwp hnet hev
    cases hev with
    | refl => rfl
    | step hs _ =>
      exfalso
      have hc := hs.1
      have hd := dirSize_eq env.cacheDir (fs.put (tempFilepath env name rnd) ⟨w, now⟩)
      have hd0 := dirSize_eq env.cacheDir fs
      have he : entriesSize env.cacheDir (fs.put (tempFilepath env name rnd) ⟨w, now⟩) =
          entriesSize env.cacheDir fs := by rw [entriesSize_put hwf, hnv]; simp
      have ht := tempSize_put_temp (env := env) (f := ⟨w, now⟩) hwf hut hnv hg
      have hlen : (File.mk w now).size ≤ reader.bytes.length := by
        have := hwp.length_le
        simp only [File.size]; omega
      have := hnet.bounds
      omega
  rcases write_state (ff := ff) (reader := reader) (now := now) hv hr hw hwf n with h | h
  · rcases h with h | ⟨hg, w, net, fs2, hwp, hnet, hev, h⟩
    · rw [h]
    · have := hnone w net fs2 hg hwp hnet hev
      subst this
      rcases h with h | h
      · rw [h, get_put_ne h1]
      · rw [h, get_erase_ne h1, get_put_ne h1]
  · obtain ⟨-, hg, net, fs2, hnet, hev, -, h⟩ := h
    have := hnone _ net fs2 hg (by simp) hnet hev
    subst this
    rw [h, get_put_ne h2, get_erase_ne h1, get_put_ne h1]

/-- **C04** A single eviction with strategy `largest` or `lru` removes exactly one file, and it is the right
one - for every order in which the directory walk visits the files. -/
theorem C04_evicts_best_victim (hw : WalkOk env) (hs : env.strategy ≠ .none) (hwf : fs.WF)
    (hne : entries env.cacheDir fs ≠ []) (cacheSize : Int) :
    ∃ e, BestVictim env.strategy e (entries env.cacheDir fs) ∧
      (deleteOne env cacheSize noFaults n fs).res = .ok (cacheSize - e.2.size) ∧
      (deleteOne env cacheSize noFaults n fs).fs = fs.erase e.1 := by
  have h := deleteOne_sat (ff := noFaults) hw hs cacheSize fs hwf
  have hf : ∀ r, (deleteOne env cacheSize noFaults n fs).res = r → r.isOk = true := by
    intro r hr
    cases hk : r.isOk with
    | true => rfl
    | false =>
      obtain ⟨-, ⟨k, hk'⟩ | he⟩ := sat_fail h n rfl (by rw [hr]; exact hk)
      · cases hk'
      · exact absurd he hne
  cases hr : (deleteOne env cacheSize noFaults n fs).res with
  | ok c =>
    obtain ⟨e, h1, h2, h3⟩ := sat_ok h n rfl hr
    exact ⟨e, h1, by rw [h3], h2⟩
  | err => exact absurd (hf _ hr) (by decide)
  | panic => exact absurd (hf _ hr) (by decide)
  | fatal => exact absurd (hf _ hr) (by decide)

end

example : entries b!"/c" demoFs ≠ [] ∧ (deleteOne (demoEnv .largest) 7 noFaults 0 demoFs).res = .ok 3 ∧
    (deleteOne (demoEnv .lru) 7 noFaults 0 demoFs).res = .ok 4 := by decide

example : dirSize b!"/c" demoFs + 2 * (b!"x" : Str).length < (demoEnv .lru).maxSize := by decide

section
variable (env : CacheEnv) (folder name : Str) (reader : Reader) (rnd : Str) (now : Int) (n : Nat) (fs : FS)

/-- **C05**, part that holds: a file whose size is below *half* of the limit (minus leftover temporary files)
is always stored when the file system reports no errors. -/
theorem C05_small_file_is_stored_partial (hw : WalkOk env) (hv : ValidKey env folder name) (hr : Digits rnd)
    (hwf : fs.WF) (heof : reader.eof = true) (htemp : fs.get (tempFilepath env name rnd) = none)
    (hsize : tempSize env.cacheDir fs + 2 * reader.bytes.length < env.maxSize) :
    (cacheToFile env folder name reader rnd now noFaults n fs).res =
      .ok (getFilePathInCache env.cacheDir folder name) := by
  have h := cacheToFile_sat (ff := noFaults) (reader := reader) (now := now) hv hr hw hwf
  have hno : ∀ s, ¬ Failed noFaults env folder name reader rnd now fs s := by
    rintro s ⟨-, ⟨k, hk⟩ | h | h | ⟨net, fs2, hn, hev, he, hmax, -⟩⟩
    · cases hk
    · rw [heof] at h; cases h
    · exact h htemp
    · have hwf1 := WF_put hwf (tempFilepath env name rnd) ⟨reader.bytes, now⟩
      have hf := evictions_facts hev hwf1
      have hd := dirSize_eq env.cacheDir fs2
      have hes : entriesSize env.cacheDir fs2 = 0 := by unfold entriesSize; rw [he]; rfl
      have ht := tempSize_put_temp (env := env) (f := ⟨reader.bytes, now⟩) hwf
        (under_temp (env := env) (filename := name) hr) (not_visited_temp hr) htemp
      have hsz : (File.mk reader.bytes now).size = (reader.bytes.length : Int) := rfl
      have := hn.bounds
      omega
  cases hres : (cacheToFile env folder name reader rnd now noFaults n fs).res with
  | ok p => rw [(sat_ok h n rfl hres).1]
  | err => exact absurd (sat_fail h n rfl (by rw [hres]; rfl)) (hno _)
  | panic => exact absurd (sat_fail h n rfl (by rw [hres]; rfl)) (hno _)
  | fatal => exact absurd (sat_fail h n rfl (by rw [hres]; rfl)) (hno _)

/-- **C05**, what happens otherwise: with an eviction strategy a new file of at least half of the limit (minus
leftover temporary files) is never stored. -/
theorem C05_half_limit_file_never_stored (ff : Nat → Bool) (hw : WalkOk env) (hv : ValidKey env folder name)
    (hr : Digits rnd) (hwf : fs.WF) (hs : env.strategy ≠ .none)
    (hnew : fs.get (getFilePathInCache env.cacheDir folder name) = none)
    (hsize : env.maxSize ≤ tempSize env.cacheDir fs + 2 * reader.bytes.length) :
    (cacheToFile env folder name reader rnd now ff n fs).res.isOk = false := by
  have h := cacheToFile_sat (ff := ff) (reader := reader) (now := now) hv hr hw hwf
  cases hres : (cacheToFile env folder name reader rnd now ff n fs).res with
  | ok p =>
    exfalso
    obtain ⟨-, heof, hg, net, fs2, hn, hev, hfit, -⟩ := sat_ok h n rfl hres
    have hwf1 := WF_put hwf (tempFilepath env name rnd) ⟨reader.bytes, now⟩
    have hf := evictions_facts hev hwf1
    have hd := dirSize_eq env.cacheDir fs2
    have hes := entriesSize_nonneg env.cacheDir fs2
    have ht := tempSize_put_temp (env := env) (f := ⟨reader.bytes, now⟩) hwf
      (under_temp (env := env) (filename := name) hr) (not_visited_temp hr) hg
    have hsz : (File.mk reader.bytes now).size = (reader.bytes.length : Int) := rfl
    have hb := hn.bounds
    rw [hnew] at hb
    have : osz none = 0 := rfl
    have := hfit hs
    omega
  | err => rfl
  | panic => rfl
  | fatal => rfl

/-- **C05**: moreover such a write throws away the whole cache before it fails. -/
theorem C05_half_limit_file_empties_cache (hw : WalkOk env) (hv : ValidKey env folder name)
    (hr : Digits rnd) (hwf : fs.WF) (hs : env.strategy ≠ .none) (heof : reader.eof = true)
    (htemp : fs.get (tempFilepath env name rnd) = none)
    (hnew : fs.get (getFilePathInCache env.cacheDir folder name) = none)
    (hsize : env.maxSize ≤ tempSize env.cacheDir fs + 2 * reader.bytes.length) :
    entries env.cacheDir (cacheToFile env folder name reader rnd now noFaults n fs).fs = [] := by
  have h := cacheToFile_sat (ff := noFaults) (reader := reader) (now := now) hv hr hw hwf
  have hno := C05_half_limit_file_never_stored env folder name reader rnd now n fs noFaults hw hv hr hwf hs hnew hsize
  obtain ⟨-, ⟨k, hk⟩ | h | h | ⟨net, fs2, -, -, -, -, -, he⟩⟩ := sat_fail h n rfl hno
  · cases hk
  · rw [heof] at h; cases h
  · exact absurd htemp h
  · exact he

end

/-- **C05** fails: 5 bytes cannot be stored in an (almost) empty cache with a limit of 10 bytes; the strategy
`lru` returns an error, the strategy `largest` even crashes the program. -/
theorem C05_fitting_file_not_stored :
    (cacheToFile (demoEnv .lru) b!"images" b!"x" ⟨b!"12345", true⟩ b!"123" 9 noFaults 0 []).res = .err ∧
    (cacheToFile (demoEnv .largest) b!"images" b!"x" ⟨b!"12345", true⟩ b!"123" 9 noFaults 0 []).res = .panic := by
  decide

example : tempSize b!"/c" demoFs + 2 * (b!"xyz" : Str).length < (demoEnv .lru).maxSize ∧
    demoFs.get (tempFilepath (demoEnv .lru) b!"x" b!"123") = none := by decide
example : (demoEnv .lru).maxSize ≤ tempSize b!"/c" demoFs + 2 * (b!"12345" : Str).length ∧
    demoFs.get (getFilePathInCache b!"/c" b!"images" b!"x") = none := by decide

/-- **C06** Without an eviction strategy a write changes no other file, whether it succeeds, fails or is killed
at any point. -/
theorem C06_no_strategy_no_loss (env : CacheEnv) (folder name : Str) (reader : Reader) (rnd : Str) (now : Int)
    (ff : Nat → Bool) (n : Nat) (fs : FS) (hw : WalkOk env) (hv : ValidKey env folder name) (hr : Digits rnd)
    (hwf : fs.WF) (hs : env.strategy = .none) :
    ∀ s ∈ (cacheToFile env folder name reader rnd now ff n fs).log ++
        [(cacheToFile env folder name reader rnd now ff n fs).fs],
      ∀ p, p ≠ tempFilepath env name rnd → p ≠ getFilePathInCache env.cacheDir folder name →
        s.get p = fs.get p := by
  intro s hsm p h1 h2
  rcases C01_write_frame env folder name reader rnd now ff n fs hw hv hr hwf s hsm p h1 h2 with h | ⟨-, h, -⟩
  · exact h
  · exact absurd hs h

example : (demoEnv .none).strategy = .none ∧ b!"/c/images/a" ≠ tempFilepath (demoEnv .none) b!"x" b!"123" ∧
    b!"/c/images/a" ≠ getFilePathInCache b!"/c" b!"images" b!"x" := by decide

section
variable (env : CacheEnv) (folder name : Str) (now : Int) (n : Nat) (fs : FS)

/-- **C07** A lookup of a missing file reports "not usable" and changes nothing. -/
theorem C07_lookup_missing (hv : ValidKey env folder name)
    (hg : fs.get (getFilePathInCache env.cacheDir folder name) = none) :
    (getFile env folder name now noFaults n fs).res =
      .ok (getFilePathInCache env.cacheDir folder name, false) ∧
    (getFile env folder name now noFaults n fs).fs = fs := by
  have h := getFile_sat (ff := noFaults) (now := now) (fs0 := fs) hv
  cases hres : (getFile env folder name now noFaults n fs).res with
  | ok r =>
    obtain ⟨h1, h2⟩ := sat_ok h n rfl hres
    rw [h1, hg] at h2
    exact ⟨by rw [← h1, ← h2.1], h2.2⟩
  | err => obtain ⟨-, k, hk⟩ := sat_fail h n rfl (by rw [hres]; rfl); cases hk
  | panic => obtain ⟨-, k, hk⟩ := sat_fail h n rfl (by rw [hres]; rfl); cases hk
  | fatal => obtain ⟨-, k, hk⟩ := sat_fail h n rfl (by rw [hres]; rfl); cases hk

/-- **C07** A lookup of an existing file reports it as usable exactly if its age, in whole minutes,
does not exceed the maximum: `(maxAge + 1) minutes > age`. An outdated file is removed, a usable one keeps its
content, other files are untouched; with `lru` the time of the usable file becomes `now`. -/
theorem C07_lookup_existing (hv : ValidKey env folder name) (f : File) (hmax : 0 ≤ env.maxAge)
    (hg : fs.get (getFilePathInCache env.cacheDir folder name) = some f) :
    let entry := getFilePathInCache env.cacheDir folder name
    let o := getFile env folder name now noFaults n fs
    let usable := now - f.mtime < (env.maxAge + 1) * 60000000000
    (usable → o.res = .ok (entry, true) ∧
      o.fs.get entry = some ⟨f.content, if env.strategy = .lru then now else f.mtime⟩) ∧
    (¬ usable → o.res = .ok (entry, false) ∧ o.fs.get entry = none) ∧
    (∀ p, p ≠ entry → o.fs.get p = fs.get p) := by
  intro entry o usable
  have h := getFile_sat (ff := noFaults) (now := now) (fs0 := fs) hv
  have hout : fileIsOutdated env f now = true ↔ ¬ usable := by
    unfold fileIsOutdated
    simp only [gt_iff_lt, decide_eq_true_eq]
    show env.maxAge < (now - f.mtime).tdiv minuteNs ↔ ¬ (now - f.mtime < (env.maxAge + 1) * minuteNs)
    have hpos : (0:Int) < minuteNs := by decide
    by_cases hneg : 0 ≤ now - f.mtime
    · rw [Int.tdiv_eq_ediv_of_nonneg hneg, ← Int.add_one_le_iff, Int.le_ediv_iff_mul_le hpos]
      omega
    · have h1 : (now - f.mtime).tdiv minuteNs ≤ 0 := by
        have : -(now - f.mtime).tdiv minuteNs = (-(now - f.mtime)).tdiv minuteNs := by rw [Int.neg_tdiv]
        have h2 := Int.tdiv_nonneg (a := -(now - f.mtime)) (b := minuteNs) (by omega) (by omega)
        omega
      have h3 : 0 < (env.maxAge + 1) * minuteNs := Int.mul_pos (by omega) hpos
      omega
  have hfr : ∀ p, p ≠ entry → o.fs.get p = fs.get p := by
    have hst := lookup_state (ff := noFaults) (now := now) (fs0 := fs) hv n
    rcases hst with h | ⟨f, -, ⟨-, h⟩ | ⟨-, -, h⟩⟩
    · intro p _; show (getFile _ _ _ _ _ _ _).fs.get p = _; rw [h]
    · intro p hp; show (getFile _ _ _ _ _ _ _).fs.get p = _; rw [h, get_erase_ne hp]
    · intro p hp; show (getFile _ _ _ _ _ _ _).fs.get p = _; rw [h, get_put_ne hp]
  cases hres : (getFile env folder name now noFaults n fs).res with
  | ok r =>
    obtain ⟨h1, h2⟩ := sat_ok h n rfl hres
    rw [h1, hg] at h2
    obtain ⟨h2, h3, h4⟩ := h2
    refine ⟨?_, ?_, hfr⟩
    · intro hu
      have hfo : fileIsOutdated env f now = false := by
        rw [← Bool.not_eq_true, hout]; exact fun h => h hu
      refine ⟨?_, ?_⟩
      · have : r.2 = true := by rw [h2, hfo]; rfl
        exact congrArg Res.ok (Prod.ext h1 this)
      · show (getFile _ _ _ _ _ _ _).fs.get entry = _
        rcases h4 hfo with ⟨hl, he⟩ | ⟨hl, he | ⟨⟨k, hk⟩, -⟩⟩
        · rw [he, if_neg hl]; exact hg
        · rw [he, if_pos hl]; exact get_put_self _ _ _
        · cases hk
    · intro hu
      have hfo := hout.mpr hu
      refine ⟨?_, ?_⟩
      · have : r.2 = false := by rw [h2, hfo]; rfl
        exact congrArg Res.ok (Prod.ext h1 this)
      · show (getFile _ _ _ _ _ _ _).fs.get entry = _
        rw [h3 hfo]; exact get_erase_self _ _
  | err => obtain ⟨-, k, hk⟩ := sat_fail h n rfl (by rw [hres]; rfl); cases hk
  | panic => obtain ⟨-, k, hk⟩ := sat_fail h n rfl (by rw [hres]; rfl); cases hk
  | fatal => obtain ⟨-, k, hk⟩ := sat_fail h n rfl (by rw [hres]; rfl); cases hk

/-- **C07** Under faults a lookup may fail, but it never reports a missing or outdated file as usable. -/
theorem C07_usable_is_fresh (ff : Nat → Bool) (hv : ValidKey env folder name) (p : Str)
    (hres : (getFile env folder name now ff n fs).res = .ok (p, true)) :
    p = getFilePathInCache env.cacheDir folder name ∧
    ∃ f, fs.get p = some f ∧ fileIsOutdated env f now = false ∧
      ∃ g, (getFile env folder name now ff n fs).fs.get p = some g ∧ g.content = f.content := by
  have h := getFile_sat (ff := ff) (now := now) (fs0 := fs) hv
  obtain ⟨h1, h2⟩ := sat_ok h n rfl hres
  simp only at h1
  subst h1
  refine ⟨rfl, ?_⟩
  simp only at h2
  cases hg : fs.get (getFilePathInCache env.cacheDir folder name) with
  | none => rw [hg] at h2; cases h2.1
  | some f =>
    rw [hg] at h2
    obtain ⟨h2, h3, h4⟩ := h2
    have hfo : fileIsOutdated env f now = false := by
      cases hh : fileIsOutdated env f now with
      | false => rfl
      | true => rw [hh] at h2; cases h2
    refine ⟨f, rfl, hfo, ?_⟩
    rcases h4 hfo with ⟨-, he⟩ | ⟨-, he | ⟨-, he⟩⟩
    · exact ⟨f, by rw [he]; exact hg, rfl⟩
    · exact ⟨⟨f.content, now⟩, by rw [he]; exact get_put_self _ _ _, rfl⟩
    · exact ⟨f, by rw [he]; exact hg, rfl⟩

end

example : (getFile (demoEnv .lru) b!"images" b!"a" (5 + 61 * 60000000000 - 1) noFaults 0 demoFs).res = .ok (b!"/c/images/a", true)
    ∧ (getFile (demoEnv .lru) b!"images" b!"a" (5 + 61 * 60000000000) noFaults 0 demoFs).res = .ok (b!"/c/images/a", false) := by
  decide

/-- **C08** After any history of writes and lookups (complete, failed or killed at any point, with eviction and
ageing in between), a lookup that reports a usable file yields the content of the last successful write to
exactly this folder and name - or of a later write that was killed before it reported its result. `init`
describes the contents at the beginning. -/
theorem C08_lookup_yields_last_write (env : CacheEnv) (hw : WalkOk env) (init : Str → Str → Str → Prop)
    {fs0 fs : FS} {hist : List CacheEvent} (hwf : fs0.WF)
    (hinit : ∀ folder name f, ValidKey env folder name →
      fs0.get (getFilePathInCache env.cacheDir folder name) = some f → init folder name f.content)
    (hrun : CacheRun env fs0 hist fs) (folder name : Str) (hv : ValidKey env folder name)
    (now : Int) (ff : Nat → Bool) (n : Nat) (p : Str)
    (hres : (getFile env folder name now ff n fs).res = .ok (p, true)) :
    ∃ f, (getFile env folder name now ff n fs).fs.get p = some f ∧
      Possible init hist folder name f.content := by
  have hinv : fs.WF ∧ ∀ folder name f, ValidKey env folder name →
      fs.get (getFilePathInCache env.cacheDir folder name) = some f →
      Possible init hist folder name f.content := by
    clear hres hv
    -- a write keeps the entries of other keys
    have other : ∀ {folder' name' folder name : Str}, ValidKey env folder' name' → ValidKey env folder name →
        ¬ (folder' = folder ∧ name' = name) →
        getFilePathInCache env.cacheDir folder name ≠ getFilePathInCache env.cacheDir folder' name' := by
      intro folder' name' folder name h1 h2 hne he
      have := C09_entry_paths_injective env.cacheDir folder folder' name name' h2.folder_plain h1.folder_plain
        h2.name_ok h1.name_ok he
      exact hne ⟨this.1.symm, this.2.symm⟩
    have look : ∀ {fs' s : FS} {h : List CacheEvent} {folder name : Str} {now : Int},
        (fs'.WF ∧ ∀ folder name f, ValidKey env folder name →
          fs'.get (getFilePathInCache env.cacheDir folder name) = some f → Possible init h folder name f.content) →
        ValidKey env folder name → LookupState env folder name now fs' s →
        s.WF ∧ ∀ folder name f, ValidKey env folder name →
          s.get (getFilePathInCache env.cacheDir folder name) = some f → Possible init h folder name f.content := by
      intro fs' s h folder' name' now ih hv' hst
      obtain ⟨l1, -, l3, l4⟩ := lookup_facts hv' ih.1 hst
      refine ⟨l1, ?_⟩
      intro folder name f hv hg
      by_cases he : getFilePathInCache env.cacheDir folder name = getFilePathInCache env.cacheDir folder' name'
      · rw [he] at hg
        obtain ⟨g, hg', hc⟩ := l4 f hg
        rw [hc]
        exact ih.2 folder name g hv (by rw [he]; exact hg')
      · rw [l3 _ he] at hg
        exact ih.2 folder name f hv hg
    induction hrun with
    | refl => exact ⟨hwf, hinit⟩
    | @wrote h fs' folder' name' reader rnd now ff n p _ hv' hr hok ih =>
      obtain ⟨-, hd⟩ := sat_ok (cacheToFile_sat (ff := ff) (reader := reader) (now := now) hv' hr hw ih.1) n rfl hok
      obtain ⟨d1, d2, -, -, d5⟩ := done_facts hv' hr ih.1 hd
      refine ⟨d1, ?_⟩
      intro folder name f hv hg
      unfold Possible
      split
      · rename_i hk
        obtain ⟨rfl, rfl⟩ := hk
        rw [d2] at hg
        cases hg; rfl
      · rename_i hk
        rcases d5 _ (temp_ne_out hv hr).symm (other hv' hv hk) with h | h
        · exact ih.2 folder name f hv (by rw [← h]; exact hg)
        · rw [h.1] at hg; cases hg
    | @writeFailed h fs' folder' name' reader rnd now ff n _ hv' hr hfail ih =>
      have hm := (sat_fail (cacheToFile_sat (ff := ff) (reader := reader) (now := now) hv' hr hw ih.1) n rfl hfail).1
      obtain ⟨m1, -, m3⟩ := mid_facts hv' hr ih.1 hm
      refine ⟨m1, ?_⟩
      intro folder name f hv hg
      rcases m3 _ (temp_ne_out hv hr).symm with h | h
      · exact ih.2 folder name f hv (by rw [← h]; exact hg)
      · rw [h.1] at hg; cases hg
    | @writeKilled h fs' folder' name' reader rnd now ff n s _ hv' hr hs ih =>
      rcases sat_log (cacheToFile_sat (ff := ff) (reader := reader) (now := now) hv' hr hw ih.1) n rfl hs with hm | hd
      · obtain ⟨m1, -, m3⟩ := mid_facts hv' hr ih.1 hm
        refine ⟨m1, ?_⟩
        intro folder name f hv hg
        right
        rcases m3 _ (temp_ne_out hv hr).symm with h | h
        · exact ih.2 folder name f hv (by rw [← h]; exact hg)
        · rw [h.1] at hg; cases hg
      · obtain ⟨d1, d2, -, -, d5⟩ := done_facts hv' hr ih.1 hd
        refine ⟨d1, ?_⟩
        intro folder name f hv hg
        by_cases hk : folder' = folder ∧ name' = name
        · left
          obtain ⟨rfl, rfl⟩ := hk
          rw [d2] at hg
          cases hg
          exact ⟨rfl, rfl, rfl⟩
        · right
          rcases d5 _ (temp_ne_out hv hr).symm (other hv' hv hk) with h | h
          · exact ih.2 folder name f hv (by rw [← h]; exact hg)
          · rw [h.1] at hg; cases hg
    | looked _ hv' ih => exact look ih hv' (lookup_state hv' _)
    | lookedKilled _ hv' hs ih => exact look ih hv' (sat_log (getFile_sat hv') _ rfl hs)
  obtain ⟨rfl, f, hf, -, g, hg, hc⟩ := C07_usable_is_fresh env folder name now n fs ff hv p hres
  refine ⟨g, hg, ?_⟩
  rw [hc]
  exact hinv.2 folder name f hv hf

/-- The last successful write wins: without killed writes, `Possible` is a single content. -/
example (init : Str → Str → Str → Prop) (c : Str) :
    Possible init [.looked b!"images" b!"a", .wrote b!"html" b!"a" b!"3", .wrote b!"images" b!"a" b!"2",
      .wrote b!"images" b!"a" b!"1"] b!"images" b!"a" c ↔ c = b!"2" := by
  simp [Possible]

end Verif.Props
