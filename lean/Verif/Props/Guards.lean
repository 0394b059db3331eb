import Verif.Model.Guards
import Verif.Props.CachePath
import Verif.Props.Cache
import Verif.Props.Sanitize
import Verif.Model.Config

/-!
# C91: a cache folder that the settings accept can be used
-/

namespace Verif.Props

open Verif.Go Verif.Model Verif.Spec Verif.Lemmas FSl FsM

/-- The file operations accept the paths of all entries of the cache. -/
def EntriesAccepted (env : CacheEnv) (fs : FS) : Prop := ∀ e ∈ entries env.cacheDir fs, isSanitized e.1 = true

/-- With the checks the code does the same, on each state that fulfils `I`, and `I` holds afterwards. -/
def Unchecked {α : Type} (I : FS → Prop) (g m : FsM α) : Prop := ∀ ff n fs, I fs → g ff n fs = m ff n fs ∧ I (m ff n fs).fs

namespace Unchecked
variable {α β : Type} {I : FS → Prop}

theorem pure (a : α) : Unchecked I (Pure.pure a : FsM α) (Pure.pure a) := fun _ _ _ h => ⟨rfl, h⟩

theorem bindPost {g m : FsM α} {k k' : α → FsM β} (P : α → Prop) (h1 : Unchecked I g m)
    (hP : ∀ ff n fs a, I fs → (m ff n fs).res = .ok a → P a) (h2 : ∀ a, P a → Unchecked I (k a) (k' a)) :
    Unchecked I (g >>= k) (m >>= k') := by
  intro ff n fs hf
  show FsM.bind g k ff n fs = FsM.bind m k' ff n fs ∧ I (FsM.bind m k' ff n fs).fs
  obtain ⟨e, hi⟩ := h1 ff n fs hf
  have hp := fun a => hP ff n fs a hf
  unfold FsM.bind
  rw [e]
  generalize m ff n fs = o at hi hp
  rcases o with ⟨res, fs', step, log⟩
  cases res with
  | ok a =>
    obtain ⟨e2, hi2⟩ := h2 a (hp a rfl) ff step fs' hi
    simp only [e2]
    exact ⟨trivial, hi2⟩
  | _ => exact ⟨rfl, hi⟩

theorem bind {g m : FsM α} {k k' : α → FsM β} (h1 : Unchecked I g m) (h2 : ∀ a, Unchecked I (k a) (k' a)) :
    Unchecked I (g >>= k) (m >>= k') := bindPost (fun _ => True) h1 (fun _ _ _ _ _ _ => trivial) fun a _ => h2 a

theorem req {path : Str} (h : isSanitized path = true) {k : Unit → FsM α} {m : FsM α} (h2 : Unchecked I (k ()) m) :
    Unchecked I (requireSanitized path >>= k) m := by
  intro ff n fs hf
  have : (requireSanitized path >>= k) ff n fs = k () ff n fs := by
    show FsM.bind (requireSanitized path) k ff n fs = _
    unfold requireSanitized
    rw [if_pos h]
    rfl
  rw [this]
  exact h2 ff n fs hf

theorem prim {f : FS → Res α × FS} (h : ∀ fs, I fs → I (f fs).2) : Unchecked I (FsM.prim f) (FsM.prim f) := by
  intro ff n fs hf
  refine ⟨rfl, ?_⟩
  unfold FsM.prim
  split
  · exact hf
  · exact h fs hf

theorem attempt {m : FsM α} (h1 : Unchecked I m m) : Unchecked I (FsM.attempt m) (FsM.attempt m) := by
  intro ff n fs hf
  have := (h1 ff n fs hf).2
  refine ⟨rfl, ?_⟩
  unfold FsM.attempt
  cases h : (m ff n fs).res <;> simpa [h] using this

theorem deferred {g m : FsM α} {fin fin' : FsM Unit} (h1 : Unchecked I g m) (h2 : Unchecked I fin fin') :
    Unchecked I (FsM.deferred g fin) (FsM.deferred m fin') := by
  intro ff n fs hf
  obtain ⟨e, hi⟩ := h1 ff n fs hf
  obtain ⟨e2, hi2⟩ := h2 ff (m ff n fs).step (m ff n fs).fs hi
  unfold FsM.deferred
  rw [e]
  generalize m ff n fs = o at hi e2 hi2
  rcases o with ⟨res, fs', step, log⟩
  cases res with
  | fatal => exact ⟨rfl, hi⟩
  | _ => simp only [e2]; exact ⟨trivial, hi2⟩

end Unchecked

/-! ### What the operations do to the entries -/

theorem accepted_erase {env : CacheEnv} {fs : FS} (h : EntriesAccepted env fs) (p : Str) : EntriesAccepted env (fs.erase p) := by
  intro e he
  unfold entries FS.erase at he
  rw [List.mem_filter, List.mem_filter] at he
  refine h e ?_
  unfold entries
  rw [List.mem_filter]
  exact ⟨he.1.1, he.2⟩

theorem accepted_put {env : CacheEnv} {fs : FS} (h : EntriesAccepted env fs) {p : Str} (hp : isSanitized p = true) (f : File) :
    EntriesAccepted env (fs.put p f) := by
  intro e he
  unfold entries FS.put at he
  rw [List.mem_filter] at he
  rcases List.mem_cons.mp he.1 with rfl | hm
  · exact hp
  · refine accepted_erase h p e ?_
    unfold entries
    rw [List.mem_filter]
    exact ⟨hm, he.2⟩

/-! ### The paths -/

theorem mem_cleanSteps {r : Bool} (l stack : List Str) {e : Str} (h : e ∈ l.foldl (cleanStep r) stack) :
    e ∈ l ∨ e ∈ stack ∨ e = b!".." := by
  induction l generalizing stack with
  | nil => exact Or.inr (Or.inl h)
  | cons a t ih =>
    rcases ih _ h with h | h | h
    · exact Or.inl (List.mem_cons_of_mem _ h)
    · unfold cleanStep at h
      split at h
      · exact Or.inr (Or.inl h)
      split at h
      · split at h
        · split at h
          · rcases List.mem_cons.mp h with h | h
            · exact Or.inr (Or.inr h)
            · exact Or.inr (Or.inl h)
          · exact Or.inr (Or.inl (List.mem_cons_of_mem _ h))
        · split at h
          · cases h
          · exact Or.inr (Or.inr (List.mem_singleton.mp h))
      · rcases List.mem_cons.mp h with h | h
        · exact Or.inl (h ▸ List.mem_cons_self)
        · exact Or.inr (Or.inl h)
    · exact Or.inr (Or.inr h)

theorem accepted_cleanElems {d : Str} (h : isSanitized d = true) : (cleanElems d).all isSanitizedPart = true := by
  rw [List.all_eq_true]
  intro e he
  unfold cleanElems at he
  rw [List.mem_reverse] at he
  rcases mem_cleanSteps _ _ he with h1 | h1 | h1
  · exact List.all_eq_true.mp h e h1
  · cases h1
  · rw [h1]; decide

theorem accepted_join : ∀ {es : List Str}, es.all isSanitizedPart = true → (∀ e ∈ es, sepB ∉ e) → isSanitized (join b!"/" es) = true
  | [], _, _ => by decide
  | [e], h, hs => by
    show (split (join b!"/" [e]) b!"/").all isSanitizedPart = true
    have : join b!"/" [e] = e := by simp [join]
    rw [this, split_singleton_of_not_mem (hs e (by simp))]
    exact h
  | e :: e2 :: es, h, hs => by
    have ih := accepted_join (es := e2 :: es) (by simp only [List.all_cons, Bool.and_eq_true] at h ⊢; exact h.2)
      fun x hx => hs x (List.mem_cons_of_mem _ hx)
    have : join b!"/" (e :: e2 :: es) = e ++ 0x2F :: join b!"/" (e2 :: es) := by simp [join]
    rw [this]
    show (split _ b!"/").all isSanitizedPart = true
    rw [split_singleton_append _ (hs e (by simp))]
    simp only [List.all_cons, Bool.and_eq_true] at h ⊢
    exact ⟨h.1, ih⟩

theorem accepted_render {r : Bool} {es : List Str} (h : es.all isSanitizedPart = true) (hs : ∀ e ∈ es, sepB ∉ e) :
    isSanitized (renderPath r es) = true := by
  unfold renderPath
  split
  · show (split ([] ++ 0x2F :: join b!"/" es) b!"/").all isSanitizedPart = true
    rw [split_singleton_append _ (by simp)]
    simp only [List.all_cons, Bool.and_eq_true]
    exact ⟨by decide, accepted_join h hs⟩
  · split
    · decide
    · exact accepted_join h hs

theorem accepted_dir {cacheDir folder : Str} (h : isSanitized cacheDir = true) (hf : Plain folder) (hs : isSanitizedPart folder = true) :
    isSanitized (getDirPathInCache cacheDir folder) = true := by
  unfold getDirPathInCache
  rw [pathJoin_two hf]
  refine accepted_render ?_ ?_
  · simp only [List.all_append, accepted_cleanElems h, List.all_cons, hs, List.all_nil, Bool.and_true]
  · intro e he
    rcases List.mem_append.mp he with he | he
    · exact (NF_cleanElems _).no_sep e (List.mem_reverse.mpr he)
    · rw [List.mem_singleton.mp he]; exact hf.no_sep

theorem accepted_entry {cacheDir folder name : Str} (h : isSanitized cacheDir = true) (hf : Plain folder)
    (hs : isSanitizedPart folder = true) (hn : name ∉ [b!"", b!".", b!".."]) :
    isSanitized (getFilePathInCache cacheDir folder name) = true :=
  C10_entry_path_accepted _ _ _ hf hn (accepted_dir h hf hs)

/-- What `os.CreateTemp` appends: a number. -/
def IsNumber (rnd : Str) : Prop := ∀ c ∈ rnd, 0x30 ≤ c ∧ c ≤ 0x39

theorem accepted_temp {env : CacheEnv} (h : isSanitized env.cacheDir = true) (name : Str) {rnd : Str} (hr : IsNumber rnd) :
    isSanitized (tempFilepath env name rnd) = true := by
  have e : sanitizeFilename name ++ rnd = sanitizeFilename (name ++ rnd) := by
    rw [sanitize_eq_flatMap, sanitize_eq_flatMap, List.flatMap_append, ← sanitize_eq_flatMap rnd, C10_sanitize_plain rnd]
    intro c hc
    obtain ⟨h1, h2⟩ := hr c hc
    have h1' : 48 ≤ c.toNat := h1
    have h2' : c.toNat ≤ 57 := h2
    constructor
    · rintro rfl; exact absurd h1' (by decide)
    · intro hm
      have : ∀ d ∈ forbidden, ¬ (48 ≤ d.toNat ∧ d.toNat ≤ 57) := by decide
      exact this c hm ⟨h1', h2'⟩
  unfold tempFilepath
  rw [List.append_assoc, e]
  have ht : isSanitized (getTempPath env.cacheDir) = true :=
    accepted_dir (folder := tempDirName) h ⟨by decide, by decide, by decide, by decide⟩ (by decide)
  unfold isSanitized at ht ⊢
  rw [List.append_assoc, List.singleton_append, split_singleton_append_split, List.all_append, ht]
  exact isSanitized_sanitize (name ++ rnd)

/-! ### The functions of the cache -/

section
variable {env : CacheEnv}

theorem found_accepted_largest (hw : WalkOk env) (ff : Nat → Bool) (n : Nat) (fs : FS) (a : Int × Str) (hI : EntriesAccepted env fs)
    (h : (findLargestFile env env.cacheDir tempDirName ff n fs).res = .ok a) : isSanitized a.2 = true := by
  unfold findLargestFile FsM.prim at h
  split at h
  · cases h
  · cases hl : (env.walk fs).filter (fun e => visited env.cacheDir tempDirName e.1) with
    | nil => simp only [hl] at h; cases h
    | cons x t =>
      obtain ⟨e, h1, h2, -, -⟩ := foldl_largerStep t x
      have h3 : (x :: t).foldl largerStep none = some e := h1
      simp only [hl, h3] at h
      cases h
      refine hI e ?_
      rw [← mem_walk_filter hw, hl]
      rcases h2 with rfl | h2 <;> simp [*]

theorem found_accepted_lru (hw : WalkOk env) (ff : Nat → Bool) (n : Nat) (fs : FS) (a : Int × Str) (hI : EntriesAccepted env fs)
    (h : (findLruFile env env.cacheDir tempDirName ff n fs).res = .ok a) : isSanitized a.2 = true := by
  unfold findLruFile FsM.prim at h
  split at h
  · cases h
  · cases hl : (env.walk fs).filter (fun e => visited env.cacheDir tempDirName e.1) with
    | nil => simp only [hl] at h; cases h; decide
    | cons x t =>
      obtain ⟨e, h1, h2, -, -⟩ := foldl_olderStep t x
      have h3 : (x :: t).foldl olderStep none = some e := h1
      simp only [hl, h3] at h
      cases h
      refine hI e ?_
      rw [← mem_walk_filter hw, hl]
      rcases h2 with rfl | h2 <;> simp [*]

theorem unchecked_remove (p : Str) : Unchecked (EntriesAccepted env) (FsM.remove p) (FsM.remove p) := Unchecked.prim fun fs hf => by
  split
  · exact hf
  · split
    · exact accepted_erase hf _
    · exact hf

theorem unchecked_stat (p : Str) : Unchecked (EntriesAccepted env) (FsM.stat p) (FsM.stat p) :=
  Unchecked.prim fun fs hf => by split <;> exact hf

theorem unchecked_deleteOne (hw : WalkOk env) (hd : isSanitized env.cacheDir = true) (size : Int) :
    Unchecked (EntriesAccepted env) (checkedDeleteOne env size) (deleteOne env size) := by
  unfold checkedDeleteOne deleteOne
  cases env.strategy with
  | none => exact fun _ _ _ h => ⟨rfl, h⟩
  | largest =>
    refine Unchecked.req hd (Unchecked.req (by decide) (Unchecked.bindPost (fun a => isSanitized a.2 = true) (Unchecked.prim ?_)
      (found_accepted_largest hw) fun a ha => Unchecked.req ha (Unchecked.bind (unchecked_remove _) fun _ => Unchecked.pure _)))
    intro fs hf
    split <;> exact hf
  | lru =>
    refine Unchecked.req hd (Unchecked.req (by decide) (Unchecked.bindPost (fun a => isSanitized a.2 = true) (Unchecked.prim ?_)
      (found_accepted_lru hw) fun a ha => Unchecked.req ha (Unchecked.bind (unchecked_remove _) fun _ => Unchecked.pure _)))
    intro fs hf
    split <;> exact hf

theorem unchecked_evictLoop (hw : WalkOk env) (hd : isSanitized env.cacheDir = true) (net : Int) (k : Nat) (size : Int) :
    Unchecked (EntriesAccepted env) (checkedEvictLoop env net k size) (evictLoop env net k size) := by
  induction k generalizing size with
  | zero => unfold checkedEvictLoop evictLoop; split <;> exact Unchecked.pure _
  | succ k ih =>
    unfold checkedEvictLoop evictLoop
    split
    · exact Unchecked.bind (unchecked_deleteOne hw hd size) fun s => ih s
    · exact Unchecked.pure _

theorem unchecked_copyTo {temp : Str} (ht : isSanitized temp = true) (now : Int) (bs : Str) (eof : Bool) :
    Unchecked (EntriesAccepted env) (copyTo temp now bs eof) (copyTo temp now bs eof) := by
  induction bs with
  | nil =>
    cases eof
    · exact fun _ _ _ h => ⟨rfl, h⟩
    · exact Unchecked.pure _
  | cons b bs ih =>
    refine Unchecked.bind (Unchecked.prim fun fs hf => ?_) fun _ => ih
    split
    · exact accepted_put hf ht _
    · exact hf

end

/-- **C91** (storing): if the operations accept the path of the cache folder and of the files in it, then no check ends the program while a file
is stored, whatever it is called and whatever fails, and the paths in the cache are accepted afterwards as well. -/
theorem C91_storing_passes_the_checks_partial (env : CacheEnv) (hw : WalkOk env) (hd : isSanitized env.cacheDir = true) (folder name : Str)
    (hf : folder ∈ [b!"articles", b!"html", b!"images", b!"math", b!"templates"]) (hn : name ∉ [b!"", b!".", b!".."])
    (reader : Reader) (rnd : Str) (hr : IsNumber rnd) (now : Int) (faults : Nat → Bool) (n : Nat) (fs : FS) (hfs : EntriesAccepted env fs) :
    checkedCacheToFile env folder name reader rnd now faults n fs = cacheToFile env folder name reader rnd now faults n fs ∧
      EntriesAccepted env (cacheToFile env folder name reader rnd now faults n fs).fs := by
  have hp : Plain folder ∧ isSanitizedPart folder = true := by
    simp only [List.mem_cons, List.not_mem_nil, or_false] at hf
    rcases hf with rfl | rfl | rfl | rfl | rfl <;> exact ⟨⟨by decide, by decide, by decide, by decide⟩, by decide⟩
  have ht := accepted_temp hd name hr
  have ho := accepted_entry hd hp.1 hp.2 hn
  revert faults n fs
  show Unchecked (EntriesAccepted env) _ _
  unfold checkedCacheToFile cacheToFile
  refine Unchecked.req (accepted_dir hd hp.1 hp.2) (Unchecked.bind (Unchecked.prim fun fs h => h) fun _ =>
    Unchecked.req (accepted_dir (folder := tempDirName) hd ⟨by decide, by decide, by decide, by decide⟩ (by decide))
    (Unchecked.req (C10_sanitize_accepted name) (Unchecked.bind (Unchecked.prim fun fs h => ?_) fun _ =>
    Unchecked.deferred (Unchecked.bind (unchecked_copyTo ht _ _ _) fun _ => Unchecked.bind ?_ fun _ =>
      Unchecked.bind (Unchecked.prim fun fs h => h) fun _ => Unchecked.req ht (Unchecked.req ho
      (Unchecked.bind (Unchecked.prim fun fs h => ?_) fun _ => Unchecked.pure _))) (Unchecked.req ht (unchecked_remove _)))))
  · split
    · exact h
    · exact accepted_put h ht _
  · unfold checkedEvictIfNeeded evictIfNeeded
    split
    · refine Unchecked.req hd (Unchecked.bind (Unchecked.prim fun fs h => h) fun _ => Unchecked.bind (unchecked_stat _) fun _ =>
        Unchecked.bind ?_ fun _ => Unchecked.pure _)
      unfold checkedDeleteFiles deleteFilesFromCacheIfNeeded
      exact Unchecked.req ho (Unchecked.bind (Unchecked.attempt (unchecked_stat _)) fun _ =>
        Unchecked.bind (fun _ _ _ h => ⟨rfl, h⟩) fun _ => unchecked_evictLoop hw hd _ _ _)
    · exact Unchecked.pure _
  · split
    · exact accepted_put (accepted_erase h _) ho _
    · exact h

/-- **C91** (reading): the same for the search of a file in the cache. -/
theorem C91_searching_passes_the_checks_partial (env : CacheEnv) (hd : isSanitized env.cacheDir = true) (folder name : Str)
    (hf : folder ∈ [b!"articles", b!"html", b!"images", b!"math", b!"templates"]) (hn : name ∉ [b!"", b!".", b!".."])
    (now : Int) (faults : Nat → Bool) (n : Nat) (fs : FS) (hfs : EntriesAccepted env fs) :
    checkedGetFile env folder name now faults n fs = getFile env folder name now faults n fs ∧
      EntriesAccepted env (getFile env folder name now faults n fs).fs := by
  have hp : Plain folder ∧ isSanitizedPart folder = true := by
    simp only [List.mem_cons, List.not_mem_nil, or_false] at hf
    rcases hf with rfl | rfl | rfl | rfl | rfl <;> exact ⟨⟨by decide, by decide, by decide, by decide⟩, by decide⟩
  have ho := accepted_entry hd hp.1 hp.2 hn
  revert faults n fs
  show Unchecked (EntriesAccepted env) _ _
  unfold checkedGetFile getFile
  refine Unchecked.req ho (Unchecked.bind (Unchecked.prim fun fs h => h) fun found => ?_)
  cases found with
  | none => exact Unchecked.pure _
  | some f =>
    refine Unchecked.bind ?_ fun _ => Unchecked.bind ?_ fun _ => Unchecked.pure _
    · unfold checkedRemoveIfOutdated removeIfOutdated
      split
      · exact Unchecked.req ho (unchecked_remove _)
      · exact Unchecked.pure _
    · unfold checkedTouchIfLru touchIfLru
      split
      · refine Unchecked.req ho (Unchecked.bind (Unchecked.attempt (Unchecked.prim fun fs h => ?_)) fun _ => Unchecked.pure _)
        split
        · exact accepted_put h ho _
        · exact h
      · exact Unchecked.pure _

/-- A call of the cache: a file is stored or searched. -/
inductive CacheCall where
  | store (folder name : Str) (reader : Reader) (rnd : Str) (now : Int)
  | search (folder name : Str) (now : Int)

/-- The calls of the program: one of the folders of the cache and a name of a file. -/
def CacheCall.Proper : CacheCall → Prop
  | .store folder name _ rnd _ => folder ∈ [b!"articles", b!"html", b!"images", b!"math", b!"templates"] ∧ name ∉ [b!"", b!".", b!".."] ∧ IsNumber rnd
  | .search folder name _ => folder ∈ [b!"articles", b!"html", b!"images", b!"math", b!"templates"] ∧ name ∉ [b!"", b!".", b!".."]

/-- One call without the checks and one with them; what the caller does after an error is left open. -/
def CacheCall.plain (env : CacheEnv) : CacheCall → FsM Unit
  | .store folder name reader rnd now => do let _ ← attempt (cacheToFile env folder name reader rnd now); pure ()
  | .search folder name now => do let _ ← attempt (getFile env folder name now); pure ()
def CacheCall.checked (env : CacheEnv) : CacheCall → FsM Unit
  | .store folder name reader rnd now => do let _ ← attempt (checkedCacheToFile env folder name reader rnd now); pure ()
  | .search folder name now => do let _ ← attempt (checkedGetFile env folder name now); pure ()

/-- Several calls, one after the other. -/
def inTurn (call : CacheCall → FsM Unit) : List CacheCall → FsM Unit
  | [] => pure ()
  | c :: rest => do call c; inTurn call rest

theorem Unchecked.attempted {α : Type} {I : FS → Prop} {g m : FsM α} (h1 : Unchecked I g m) : Unchecked I (FsM.attempt g) (FsM.attempt m) := by
  intro ff n fs hf
  obtain ⟨e, this⟩ := h1 ff n fs hf
  unfold FsM.attempt
  rw [e]
  refine ⟨rfl, ?_⟩
  cases h : (m ff n fs).res <;> simpa [h] using this

/-- **C91** (runs): in a run that begins with an empty cache no check ends the program, whatever files are stored and searched in which order
and whatever fails, if the path of the cache folder is accepted. -/
theorem C91_runs_pass_the_checks_partial (env : CacheEnv) (hw : WalkOk env) (hd : isSanitized env.cacheDir = true) (calls : List CacheCall)
    (hc : ∀ c ∈ calls, c.Proper) (faults : Nat → Bool) (n : Nat) (fs : FS) (hfs : entries env.cacheDir fs = []) :
    inTurn (CacheCall.checked env) calls faults n fs = inTurn (CacheCall.plain env) calls faults n fs := by
  have main : Unchecked (EntriesAccepted env) (inTurn (CacheCall.checked env) calls) (inTurn (CacheCall.plain env) calls) := by
    clear hfs
    induction calls with
    | nil => exact Unchecked.pure _
    | cons c rest ih =>
      refine Unchecked.bind ?_ fun _ => ih fun x hx => hc x (List.mem_cons_of_mem _ hx)
      have h := hc c List.mem_cons_self
      cases c with
      | store folder name reader rnd now =>
        exact Unchecked.bind (Unchecked.attempted fun ff k s hs =>
          C91_storing_passes_the_checks_partial env hw hd folder name h.1 h.2.1 reader rnd h.2.2 now ff k s hs) fun _ => Unchecked.pure _
      | search folder name now =>
        exact Unchecked.bind (Unchecked.attempted fun ff k s hs =>
          C91_searching_passes_the_checks_partial env hd folder name h.1 h.2 now ff k s hs) fun _ => Unchecked.pure _
  exact (main faults n fs (by intro e he; rw [hfs] at he; cases he)).1

/-- A cache with a size limit of 10 bytes. -/
def smallCache (cacheDir : Str) : CacheEnv := ⟨cacheDir, 10, 5, .largest, id⟩

example : WalkOk (smallCache b!"/home/u/.cache/wiki2book") ∧ isSanitized b!"/home/u/.cache/wiki2book" = true ∧ IsNumber b!"3141592" ∧
    EntriesAccepted (smallCache b!"/home/u/.cache/wiki2book") [(b!"/home/u/.cache/wiki2book/images/A%3AB.png", ⟨b!"12345678", 3⟩)] :=
  ⟨fun l => List.Perm.refl l, by decide, by unfold IsNumber; decide, by
    intro e he
    unfold entries at he
    rw [List.mem_filter, List.mem_singleton] at he
    rw [he.1]; decide⟩

example : ∀ c ∈ [CacheCall.store b!"images" b!"File:A*B.png" ⟨b!"123456", true⟩ b!"31" 4, .store b!"html" b!"1:1?.html" ⟨b!"1234567", false⟩ b!"4" 5,
    .search b!"images" b!"File:A*B.png" 6], c.Proper := by
  intro c hc
  simp only [List.mem_cons, List.not_mem_nil, or_false] at hc
  rcases hc with rfl | rfl | rfl <;> unfold CacheCall.Proper IsNumber <;> decide

/-! ### Folders that are not accepted -/

theorem mem_path_of_mem {c : Byte} {e : Str} : ∀ {es : List Str}, e ∈ es → c ∈ e → c ∈ join b!"/" es
  | [], h, _ => by cases h
  | [x], h, hc => by
    rw [List.mem_singleton.mp h] at hc
    simpa [join] using hc
  | x :: y :: es, h, hc => by
    have e1 : join b!"/" (x :: y :: es) = x ++ 0x2F :: join b!"/" (y :: es) := by simp [join]
    rw [e1]
    rcases List.mem_cons.mp h with rfl | h
    · exact List.mem_append_left _ hc
    · exact List.mem_append_right _ (List.mem_cons_of_mem _ (mem_path_of_mem h hc))

theorem mem_render_of_mem {r : Bool} {c : Byte} {e : Str} {es : List Str} (h : e ∈ es) (hc : c ∈ e) : c ∈ renderPath r es := by
  unfold renderPath
  split
  · exact List.mem_cons_of_mem _ (mem_path_of_mem h hc)
  · split
    · rename_i h1; rw [h1] at h; cases h
    · exact mem_path_of_mem h hc

theorem rejected_of_mem {path : Str} {c : Byte} (h : c ∈ path) (hc : c ∈ forbidden) (hs : c ≠ 0x2F) : isSanitized path = false := by
  cases h1 : isSanitized path with
  | false => rfl
  | true => exact absurd (C11_check_rejects_forbidden_partial path h1 c h hc) hs

/-- **C91** fails for cache folders with one of the characters that are not allowed on Windows, as in `/data/wiki:de`: each search for a file
and each attempt to store one ends the program, … -/
theorem C91_folders_with_colons_end_the_program (env : CacheEnv) (part : Str) (hp : part ∈ cleanElems env.cacheDir) (c : Byte) (hc : c ∈ part)
    (hf : c ∈ forbidden) (folder name : Str) (hfo : folder ∈ [b!"articles", b!"html", b!"images", b!"math", b!"templates"])
    (hn : name ∉ [b!"", b!".", b!".."]) (reader : Reader) (rnd : Str) (now : Int) (faults : Nat → Bool) (n : Nat) (fs : FS) :
    checkedGetFile env folder name now faults n fs = ⟨.fatal, fs, n, []⟩ ∧
      checkedCacheToFile env folder name reader rnd now faults n fs = ⟨.fatal, fs, n, []⟩ := by
  have hpl : Plain folder := by
    simp only [List.mem_cons, List.not_mem_nil, or_false] at hfo
    rcases hfo with rfl | rfl | rfl | rfl | rfl <;> exact ⟨by decide, by decide, by decide, by decide⟩
  have hs : c ≠ 0x2F := by
    rintro rfl
    exact (NF_cleanElems env.cacheDir).no_sep part (List.mem_reverse.mpr hp) hc
  have h1 : isSanitized (getDirPathInCache env.cacheDir folder) = false := by
    refine rejected_of_mem ?_ hf hs
    unfold getDirPathInCache
    rw [pathJoin_two hpl]
    exact mem_render_of_mem (List.mem_append_left _ hp) hc
  have h2 : isSanitized (getFilePathInCache env.cacheDir folder name) = false := by
    refine rejected_of_mem ?_ hf hs
    unfold getFilePathInCache
    rw [pathJoin_three hpl (plain_sanitize hn)]
    exact mem_render_of_mem (List.mem_append_left _ hp) hc
  constructor
  · show FsM.bind (requireSanitized _) _ faults n fs = _
    unfold requireSanitized FsM.bind
    rw [if_neg (by rw [h2]; decide)]
    rfl
  · show FsM.bind (requireSanitized _) _ faults n fs = _
    unfold requireSanitized FsM.bind
    rw [if_neg (by rw [h1]; decide)]
    rfl

example : b!"wiki:de" ∈ cleanElems b!"/data/wiki:de" ∧ (0x3A : Byte) ∈ b!"wiki:de" ∧ (0x3A : Byte) ∈ forbidden := by decide

/-- … although valid settings stay valid with any cache folder. -/
theorem C91_settings_accept_each_folder (c : Config) (h : assertValidity c = .ok ()) (cacheDir : Str) :
    assertValidity { c with str := fun o => if o = .cacheDir then cacheDir else c.str o } = .ok () := h

example : assertValidity (defaultConfig ⟨b!"/home/u/.cache", true, true⟩) = .ok () := by decide +kernel

/-- **C91** fails for a file of another program in the cache folder: if it has to be evicted, the program ends, and a part of the new file is
left in the folder for temporary files. -/
theorem C91_foreign_files_end_the_program :
    (cacheToFile (smallCache b!"/c") b!"images" b!"a.png" ⟨b!"123", true⟩ b!"77" 5 (fun _ => false) 0 [(b!"/c/x:y", ⟨b!"12345678", 3⟩)]).res =
      .ok b!"/c/images/a.png" ∧
    (checkedCacheToFile (smallCache b!"/c") b!"images" b!"a.png" ⟨b!"123", true⟩ b!"77" 5 (fun _ => false) 0
      [(b!"/c/x:y", ⟨b!"12345678", 3⟩)]).res = .fatal ∧
    (checkedCacheToFile (smallCache b!"/c") b!"images" b!"a.png" ⟨b!"123", true⟩ b!"77" 5 (fun _ => false) 0
      [(b!"/c/x:y", ⟨b!"12345678", 3⟩)]).fs.get b!"/c/.tmp/a.png77" = some ⟨b!"123", 5⟩ := by
  decide +kernel

end Verif.Props
