import Verif.Model.Concurrent
import Verif.Props.Cache

/-! # C21: concurrent use of the cache -/

namespace Verif.Props

open Verif.Go Verif.Model Verif.Spec Verif.Lemmas FSl

variable {env : CacheEnv} {Allowed : CacheCall → Prop}

/-- Sequential executions: calls with their results, one after the other, each run alone. -/
inductive Sequential (env : CacheEnv) (fs0 : FS) : List (Nat × CacheCall × Res (Str × Bool)) → FS → Prop
  | nil : Sequential env fs0 [] fs0
  | snoc {l fs} (id : Nat) (call : CacheCall) : Sequential env fs0 l fs →
      Sequential env fs0 (l ++ [(id, call, (call.run env fs).res)]) (call.run env fs).fs

/-- The identifiers of calls. -/
def ids (l : List (Nat × CacheCall × Res (Str × Bool))) : List Nat := l.map Prod.fst

structure ConcInv (env : CacheEnv) (fs0 : FS) (s : Conc) : Prop where
  seq : ∃ base, Sequential env fs0 s.completed base ∧
    match s.active with
    | none => s.fs = base
    | some a => a.out = a.call.run env base ∧ ∃ pre, a.out.log = pre ++ a.rest ∧ s.fs = (base :: pre).getLast (by simp)
  waiting_lt : ∀ x ∈ s.waiting, x.1 < s.next
  active_lt : ∀ a, s.active = some a → a.id < s.next
  completed_lt : ∀ x ∈ s.completed, x.1 < s.next
  distinct : ((s.completed.map Prod.fst) ++ (s.active.toList.map Active.id) ++ s.waiting.map Prod.fst).Nodup
  invoked : ∀ id call, ((∃ r, (id, call, r) ∈ s.completed) ∨ (∃ a, s.active = some a ∧ a.id = id ∧ a.call = call) ∨
    (id, call) ∈ s.waiting) → .invoke id call ∈ s.history
  responded : ∀ id r, .respond id r ∈ s.history → ∃ call, (id, call, r) ∈ s.completed
  order : ∀ h1 id call h2, s.history = h1 ++ .invoke id call :: h2 →
    ∃ l1 l2, s.completed = l1 ++ l2 ∧ id ∉ ids l1 ∧ ∀ id' r, .respond id' r ∈ h1 → id' ∈ ids l1

theorem append_singleton_cases {α : Type} {l h1 h2 : List α} {x y : α} (h : l ++ [x] = h1 ++ y :: h2) :
    (x = y ∧ l = h1 ∧ h2 = []) ∨ ∃ h2', h2 = h2' ++ [x] ∧ l = h1 ++ y :: h2' := by
  rcases List.eq_nil_or_concat h2 with rfl | ⟨h2', z, rfl⟩
  · left
    have := List.append_inj' h rfl
    simp at this
    exact ⟨this.2, this.1, rfl⟩
  · right
    rw [List.concat_eq_append, ← List.cons_append, ← List.append_assoc] at h
    have := List.append_inj' h rfl
    simp only [List.cons.injEq, and_true] at this
    refine ⟨h2', by rw [List.concat_eq_append, this.2], this.1⟩

theorem concInv_run {fs0 : FS} {s : Conc} (h : ConcRun env Allowed (Conc.start fs0) s) : ConcInv env fs0 s := by
  generalize hs : Conc.start fs0 = s0 at h
  induction h with
  | refl =>
    subst hs
    refine ⟨⟨fs0, .nil, rfl⟩, ?_, ?_, ?_, ?_, ?_, ?_, ?_⟩ <;> simp [Conc.start]
  | @step t u hprev hst ih =>
    have hi := ih
    clear ih
    cases hst with
    | @invoke call hall =>
      refine { hi with
        waiting_lt := ?_, active_lt := ?_, completed_lt := ?_, distinct := ?_, invoked := ?_, responded := ?_, order := ?_ }
      · intro x hx
        rcases List.mem_append.mp hx with hx | hx
        · exact Nat.lt_succ_of_lt (hi.waiting_lt x hx)
        · rw [List.mem_singleton] at hx; subst hx; exact Nat.lt_succ_self _
      · intro a ha; exact Nat.lt_succ_of_lt (hi.active_lt a ha)
      · intro x hx; exact Nat.lt_succ_of_lt (hi.completed_lt x hx)
      · have hd := hi.distinct
        simp only [List.map_append, List.map_cons, List.map_nil]
        rw [← List.append_assoc]
        rw [List.nodup_append]
        refine ⟨hd, by simp, ?_⟩
        intro x hx y hy
        rw [List.mem_singleton] at hy
        subst hy
        have hlt : x < t.next := by
          simp only [List.mem_append, List.mem_map] at hx
          rcases hx with (⟨z, hz, rfl⟩ | ⟨z, hz, rfl⟩) | ⟨z, hz, rfl⟩
          · exact hi.completed_lt z hz
          · exact hi.active_lt z (by simpa using hz)
          · exact hi.waiting_lt z hz
        omega
      · intro id c hor
        simp only [List.mem_append, List.mem_singleton]
        rcases hor with h | h | h
        · exact Or.inl (hi.invoked id c (Or.inl h))
        · exact Or.inl (hi.invoked id c (Or.inr (Or.inl h)))
        · rcases List.mem_append.mp h with h | h
          · exact Or.inl (hi.invoked id c (Or.inr (Or.inr h)))
          · rw [List.mem_singleton] at h
            cases h
            exact Or.inr rfl
      · intro id r hr
        simp only [List.mem_append, List.mem_singleton] at hr
        rcases hr with hr | hr
        · exact hi.responded id r hr
        · cases hr
      · intro h1 id c h2 heq
        rcases append_singleton_cases heq with ⟨hx, hl, rfl⟩ | ⟨h2', -, hl⟩
        · cases hx
          subst hl
          refine ⟨t.completed, [], by simp, ?_, ?_⟩
          · intro hm
            simp only [ids, List.mem_map] at hm
            obtain ⟨z, hz, hzz⟩ := hm
            have := hi.completed_lt z hz
            omega
          · intro id' r hr
            obtain ⟨c, hc⟩ := hi.responded id' r hr
            exact List.mem_map.mpr ⟨_, hc, rfl⟩
        · exact hi.order h1 id c h2' hl
    | @lock id call w1 w2 ha hw =>
      obtain ⟨base, hseq, hfs⟩ := hi.seq
      rw [ha] at hfs
      simp only at hfs
      refine { hi with
        seq := ⟨base, hseq, ?_⟩, waiting_lt := ?_, active_lt := ?_, distinct := ?_, invoked := ?_ }
      · subst hfs
        exact ⟨rfl, [], rfl, rfl⟩
      · intro x hx
        refine hi.waiting_lt x ?_
        rw [hw]
        rcases List.mem_append.mp hx with hx | hx
        · simp [hx]
        · simp [hx]
      · intro a hae
        cases hae
        exact hi.waiting_lt (id, call) (by rw [hw]; simp)
      · have hd := hi.distinct
        rw [ha, hw] at hd
        simp only [Option.toList_none, List.map_nil, List.append_nil, List.map_append, List.map_cons,
          Option.toList_some] at hd ⊢
        refine hd.perm ?_
        rw [List.append_assoc]
        refine List.Perm.append_left _ ?_
        exact List.perm_middle
      · intro id' c hor
        refine hi.invoked id' c ?_
        rcases hor with h | ⟨a, h, h1, h2⟩ | h
        · exact Or.inl h
        · cases h
          right; right
          simp only at h1 h2
          subst h1 h2
          rw [hw]; simp
        · right; right
          rw [hw]
          rcases List.mem_append.mp h with h | h
          · simp [h]
          · simp [h]
    | @operate a f rest ha hr =>
      obtain ⟨base, hseq, hfs⟩ := hi.seq
      rw [ha] at hfs
      obtain ⟨hout, pre, hlog, hlast⟩ := hfs
      have hd := hi.distinct
      rw [ha] at hd
      refine { hi with seq := ⟨base, hseq, ?_⟩, active_lt := ?_, distinct := hd, invoked := ?_ }
      · refine ⟨hout, pre ++ [f], ?_, ?_⟩
        · simp only; rw [hlog, hr]; simp
        · simp
      · intro a' ha'
        cases ha'
        exact hi.active_lt a ha
      · intro id c hor
        refine hi.invoked id c ?_
        rcases hor with h | ⟨a', h, h1, h2⟩ | h
        · exact Or.inl h
        · cases h
          exact Or.inr (Or.inl ⟨a, ha, h1, h2⟩)
        · exact Or.inr (Or.inr h)
    | @unlock a ha hr =>
      obtain ⟨base, hseq, hfs⟩ := hi.seq
      rw [ha] at hfs
      obtain ⟨hout, -⟩ := hfs
      refine { hi with
        seq := ⟨a.out.fs, ?_, rfl⟩, active_lt := ?_, completed_lt := ?_, distinct := ?_, invoked := ?_,
        responded := ?_, order := ?_ }
      · have := Sequential.snoc a.id a.call hseq
        rw [← hout] at this
        exact this
      · intro a' ha'; cases ha'
      · intro x hx
        rcases List.mem_append.mp hx with hx | hx
        · exact hi.completed_lt x hx
        · rw [List.mem_singleton] at hx; subst hx; exact hi.active_lt a ha
      · have hd := hi.distinct
        rw [ha] at hd
        simpa using hd
      · intro id c hor
        refine hi.invoked id c ?_
        rcases hor with ⟨r, h⟩ | ⟨a', h, -⟩ | h
        · rcases List.mem_append.mp h with h | h
          · exact Or.inl ⟨r, h⟩
          · rw [List.mem_singleton] at h
            cases h
            exact Or.inr (Or.inl ⟨a, ha, rfl, rfl⟩)
        · cases h
        · exact Or.inr (Or.inr h)
      · intro id r hrr
        obtain ⟨c, hc⟩ := hi.responded id r hrr
        exact ⟨c, by simp [hc]⟩
      · intro h1 id c h2 heq
        obtain ⟨l1, l2, e1, e2, e3⟩ := hi.order h1 id c h2 heq
        exact ⟨l1, l2 ++ [(a.id, a.call, a.out.res)], by simp [e1], e2, e3⟩
    | @respond id call r hm =>
      refine { hi with invoked := ?_, responded := ?_, order := ?_ }
      · intro id' c hor
        simp only [List.mem_append]
        exact Or.inl (hi.invoked id' c hor)
      · intro id' r' hr
        simp only [List.mem_append, List.mem_singleton] at hr
        rcases hr with hr | hr
        · exact hi.responded id' r' hr
        · cases hr; exact ⟨call, hm⟩
      · intro h1 id' c h2 heq
        rcases append_singleton_cases heq with ⟨hx, -⟩ | ⟨h2', -, hl⟩
        · cases hx
        · exact hi.order h1 id' c h2' hl
    | @read path =>
      refine { hi with invoked := ?_, responded := ?_, order := ?_ }
      · intro id' c hor
        simp only [List.mem_append]
        exact Or.inl (hi.invoked id' c hor)
      · intro id' r' hr
        simp only [List.mem_append, List.mem_singleton] at hr
        rcases hr with hr | hr
        · exact hi.responded id' r' hr
        · cases hr
      · intro h1 id' c h2 heq
        rcases append_singleton_cases heq with ⟨hx, -⟩ | ⟨h2', -, hl⟩
        · cases hx
        · exact hi.order h1 id' c h2' hl

/-- **C21** (linearizability) For every interleaving there is a sequential order of the calls such that
* executing the calls in this order, each alone, yields the results that the threads got,
* every call that returned occurs in the order, exactly once, and was made by a thread,
* a call that was made after another one had returned comes later in the order. -/
theorem C21_linearizable (fs0 : FS) (s : Conc) (h : ConcRun env Allowed (Conc.start fs0) s) :
    ∃ order fs, Sequential env fs0 order fs ∧ (s.active = none → s.fs = fs) ∧ (ids order).Nodup ∧
      (∀ id call r, (id, call, r) ∈ order → .invoke id call ∈ s.history) ∧
      (∀ id r, .respond id r ∈ s.history → ∃ call, (id, call, r) ∈ order) ∧
      (∀ h1 h2 id call id' r, s.history = h1 ++ .invoke id call :: h2 → .respond id' r ∈ h1 →
        ∃ l1 l2, order = l1 ++ l2 ∧ id' ∈ ids l1 ∧ id ∉ ids l1) := by
  have hi := concInv_run h
  obtain ⟨base, hseq, hfs⟩ := hi.seq
  refine ⟨s.completed, base, hseq, ?_, ?_, ?_, hi.responded, ?_⟩
  · intro ha; rw [ha] at hfs; exact hfs
  · exact (List.nodup_append.mp (List.nodup_append.mp hi.distinct).1).1
  · intro id call r hm; exact hi.invoked id call (Or.inl ⟨r, hm⟩)
  · intro h1 h2 id call id' r heq hr
    obtain ⟨l1, l2, e1, e2, e3⟩ := hi.order h1 id call h2 heq
    exact ⟨l1, l2, e1, e3 id' r hr, e2⟩

/-! ## What readers without the mutex see -/

/-- Invariant of the states: the disk has property `X`, waiting calls are allowed, and the call with the mutex
started from a disk with property `X`. -/
def Steady (env : CacheEnv) (Allowed : CacheCall → Prop) (X : FS → Prop) (s : Conc) : Prop :=
  X s.fs ∧ (∀ x ∈ s.waiting, Allowed x.2) ∧ ∀ a, s.active = some a → Allowed a.call ∧
    ∃ base pre, X base ∧ a.out = a.call.run env base ∧ a.out.log = pre ++ a.rest

/-- A property of the disk that every allowed call keeps in all its intermediate states holds at all times. -/
theorem always {X : FS → Prop}
    (hX : ∀ call fs, Allowed call → X fs → ∀ f ∈ (call.run env fs).log ++ [(call.run env fs).fs], X f)
    {s0 s : Conc} (h0 : Steady env Allowed X s0) (h : ConcRun env Allowed s0 s) : Steady env Allowed X s := by
  induction h with
  | refl => exact h0
  | @step t u _ hst ih =>
    obtain ⟨h1, h2, h3⟩ := ih
    cases hst with
    | @invoke call hall =>
      refine ⟨h1, ?_, h3⟩
      intro x hx
      rcases List.mem_append.mp hx with hx | hx
      · exact h2 x hx
      · rw [List.mem_singleton] at hx; subst hx; exact hall
    | @lock id call w1 w2 ha hw =>
      refine ⟨h1, ?_, ?_⟩
      · intro x hx
        refine h2 x ?_
        rw [hw]
        rcases List.mem_append.mp hx with hx | hx <;> simp [hx]
      · intro a hae
        cases hae
        exact ⟨h2 (id, call) (by rw [hw]; simp), t.fs, [], h1, rfl, rfl⟩
    | @operate a f rest ha hr =>
      obtain ⟨hal, base, pre, hb, ho, hl⟩ := h3 a ha
      rw [hr] at hl
      refine ⟨?_, h2, ?_⟩
      · refine hX a.call base hal hb f ?_
        rw [← ho, hl]; simp
      · intro a' ha'
        cases ha'
        exact ⟨hal, base, pre ++ [f], hb, ho, by simp [hl]⟩
    | @unlock a ha hr =>
      obtain ⟨hal, base, pre, hb, ho, hl⟩ := h3 a ha
      refine ⟨?_, h2, fun a' ha' => by cases ha'⟩
      refine hX a.call base hal hb _ ?_
      rw [← ho]; simp
    | respond _ => exact ⟨h1, h2, h3⟩
    | read => exact ⟨h1, h2, h3⟩

theorem steady_start {X : FS → Prop} {fs0 : FS} (h : X fs0) : Steady env Allowed X (Conc.start fs0) :=
  ⟨h, by simp [Conc.start], by simp [Conc.start]⟩

/-- A call with a usable key. -/
def ValidCall (env : CacheEnv) : CacheCall → Prop
  | .write folder name _ rnd _ _ => ValidKey env folder name ∧ Digits rnd
  | .lookup folder name _ _ => ValidKey env folder name

theorem write_run_log (folder name : Str) (reader : Reader) (rnd : Str) (now : Int) (faults : Nat → Bool) (fs : FS) :
    ((CacheCall.write folder name reader rnd now faults).run env fs).log =
      (cacheToFile env folder name reader rnd now faults 0 fs).log ∧
    ((CacheCall.write folder name reader rnd now faults).run env fs).fs =
      (cacheToFile env folder name reader rnd now faults 0 fs).fs := by
  unfold CacheCall.run
  simp only
  split <;> exact ⟨rfl, rfl⟩

theorem other_entry {folder' name' folder name : Str} (h1 : ValidKey env folder' name') (h2 : ValidKey env folder name)
    (hne : ¬ (folder' = folder ∧ name' = name)) :
    getFilePathInCache env.cacheDir folder name ≠ getFilePathInCache env.cacheDir folder' name' := by
  intro he
  have := C09_entry_paths_injective env.cacheDir folder folder' name name' h2.folder_plain h1.folder_plain
    h2.name_ok h1.name_ok he
  exact hne ⟨this.1.symm, this.2.symm⟩

/-- The states a call goes through. -/
theorem call_states {call : CacheCall} (hw : WalkOk env) (hv : ValidCall env call) {fs f : FS} (hwf : fs.WF)
    (hf : f ∈ (call.run env fs).log ++ [(call.run env fs).fs]) :
    match call with
    | .write folder name reader rnd now faults =>
      Mid faults env folder name reader rnd now fs f ∨ Done faults env folder name reader rnd now fs f
    | .lookup folder name now _ => LookupState env folder name now fs f := by
  cases call with
  | write folder name reader rnd now faults =>
    obtain ⟨hv, hr⟩ := hv
    rw [(write_run_log folder name reader rnd now faults fs).1,
      (write_run_log folder name reader rnd now faults fs).2] at hf
    rcases List.mem_append.mp hf with hf | hf
    · exact sat_log (cacheToFile_sat (ff := faults) (reader := reader) (now := now) hv hr hw hwf) 0 rfl hf
    · rw [List.mem_singleton] at hf
      subst hf
      exact write_state hv hr hw hwf 0
  | lookup folder name now faults =>
    rcases List.mem_append.mp hf with hf | hf
    · exact sat_log (getFile_sat hv) _ rfl hf
    · rw [List.mem_singleton] at hf
      subst hf
      exact lookup_state hv 0

/-- **C21** (no torn files) At every moment, also while another thread is writing, a cached file is complete: it
has the content it had at the start or the complete content of one of the writes to this very file. -/
theorem C21_readers_see_complete_files (hw : WalkOk env) (hall : ∀ c, Allowed c → ValidCall env c) (fs0 : FS)
    (hwf : fs0.WF) (s : Conc) (h : ConcRun env Allowed (Conc.start fs0) s) (folder name : Str)
    (hv : ValidKey env folder name) (f : File)
    (hf : s.fs.get (getFilePathInCache env.cacheDir folder name) = some f) :
    (∃ g, fs0.get (getFilePathInCache env.cacheDir folder name) = some g ∧ g.content = f.content) ∨
    ∃ rnd now faults, Allowed (.write folder name ⟨f.content, true⟩ rnd now faults) := by
  have key := always (env := env) (Allowed := Allowed) (s := s)
    (X := fun fs => fs.WF ∧ ∀ f, fs.get (getFilePathInCache env.cacheDir folder name) = some f →
      (∃ g, fs0.get (getFilePathInCache env.cacheDir folder name) = some g ∧ g.content = f.content) ∨
      ∃ rnd now faults, Allowed (.write folder name ⟨f.content, true⟩ rnd now faults))
    ?_ (steady_start ⟨hwf, fun f hf => Or.inl ⟨f, hf, rfl⟩⟩) h
  · exact key.1.2 f hf
  · rintro call fs hcall ⟨hwf, hX⟩ f hf
    have hst := call_states hw (hall call hcall) hwf hf
    cases call with
    | write folder' name' reader rnd now faults =>
      obtain ⟨hv', hr⟩ := hall _ hcall
      rcases hst with hm | hd
      · obtain ⟨m1, -, m3⟩ := mid_facts hv' hr hwf hm
        refine ⟨m1, fun g hg => ?_⟩
        rcases m3 _ (temp_ne_out hv hr).symm with h | h
        · exact hX g (by rw [← h]; exact hg)
        · rw [h.1] at hg; cases hg
      · obtain ⟨d1, d2, -, -, d5⟩ := done_facts hv' hr hwf hd
        refine ⟨d1, fun g hg => ?_⟩
        by_cases hk : folder' = folder ∧ name' = name
        · obtain ⟨rfl, rfl⟩ := hk
          rw [d2] at hg
          cases hg
          right
          refine ⟨rnd, now, faults, ?_⟩
          have he : reader = ⟨reader.bytes, true⟩ := by
            rw [← hd.1]
          rw [← he]
          exact hcall
        · rcases d5 _ (temp_ne_out hv hr).symm (other_entry hv' hv hk) with h | h
          · exact hX g (by rw [← h]; exact hg)
          · rw [h.1] at hg; cases hg
    | lookup folder' name' now faults =>
      have hv' : ValidKey env folder' name' := hall _ hcall
      obtain ⟨l1, -, l3, l4⟩ := lookup_facts hv' hwf hst
      refine ⟨l1, fun g hg => ?_⟩
      by_cases he : getFilePathInCache env.cacheDir folder name = getFilePathInCache env.cacheDir folder' name'
      · rw [he] at hg
        obtain ⟨g', hg', hc⟩ := l4 g hg
        rw [hc]
        exact hX g' (by rw [he]; exact hg')
      · rw [l3 _ he] at hg
        exact hX g hg

/-! ## Is a returned file still there? -/

/-- Clock of a call. -/
def CacheCall.now : CacheCall → Int
  | .write _ _ _ _ now _ => now
  | .lookup _ _ now _ => now

/-- **C21** (returned files) without an eviction strategy: a file whose path a call has returned as usable can be
read at any time later, as long as the run takes less time than the maximum age and the entries the run starts
with are not older. (Missing: other strategies, for which the claim is false, see
`C21_returned_file_can_vanish`.) -/
theorem C21_returned_file_stays_partial (hw : WalkOk env) (hs : env.strategy = .none) (lo hi : Int)
    (hall : ∀ c, Allowed c → ValidCall env c ∧ lo ≤ CacheCall.now c ∧ CacheCall.now c ≤ hi)
    (hage : hi - lo < (env.maxAge + 1) * 60000000000) (hmax : 0 ≤ env.maxAge) (fs0 : FS) (hwf : fs0.WF)
    (hold : ∀ p f, fs0.get p = some f → lo ≤ f.mtime) (s1 s2 s3 : Conc)
    (h1 : ConcRun env Allowed (Conc.start fs0) s1) (a : Active) (ha : s1.active = some a)
    (p : Str) (hres : a.out.res = .ok (p, true)) (h12 : ConcStep env Allowed s1 s2) (hunl : s2.active = none)
    (h23 : ConcRun env Allowed s2 s3) : (s3.fs.get p).isSome = true := by
  -- all files are young at all times
  have hyoung : ∀ {call : CacheCall} {fs f : FS}, Allowed call → fs.WF →
      (∀ p f, fs.get p = some f → lo ≤ f.mtime) → f ∈ (call.run env fs).log ++ [(call.run env fs).fs] →
      f.WF ∧ (∀ p g, f.get p = some g → lo ≤ g.mtime) ∧
      ∀ folder name, ValidKey env folder name → (fs.get (getFilePathInCache env.cacheDir folder name)).isSome = true →
        (f.get (getFilePathInCache env.cacheDir folder name)).isSome = true := by
    intro call fs f hcall hwf hX hf
    obtain ⟨hvc, hlo, hhi⟩ := hall call hcall
    have hst := call_states hw hvc hwf hf
    cases call with
    | write folder' name' reader rnd now faults =>
      obtain ⟨hv', hr⟩ := hvc
      simp only [CacheCall.now] at hlo hhi
      have hev : ∀ {net : Int} {x y : FS}, Evictions env.cacheDir env.maxSize env.strategy net x y → y = x := by
        intro net x y hev
        cases hev with
        | refl => rfl
        | step h1 _ =>
          obtain ⟨-, e, hb, -⟩ := h1
          rw [hs] at hb
          exact absurd hb.2 id
      rcases hst with hm | hd
      · obtain ⟨m1, -, m3⟩ := mid_facts hv' hr hwf hm
        refine ⟨m1, ?_, ?_⟩
        · intro q g hg
          rcases hm with rfl | ⟨-, w, net, fs2, -, -, hE, hor⟩
          · exact hX q g hg
          · have := hev hE
            subst this
            by_cases hq : q = tempFilepath env name' rnd
            · subst hq
              rcases hor with rfl | rfl
              · rw [get_put_self] at hg; cases hg; exact hlo
              · rw [get_erase_self] at hg; cases hg
            · rcases hor with rfl | rfl
              · rw [get_put_ne hq] at hg; exact hX q g hg
              · rw [get_erase_ne hq, get_put_ne hq] at hg; exact hX q g hg
        · intro folder name hv hsome
          rcases m3 _ (temp_ne_out hv hr).symm with h | h
          · rw [h]; exact hsome
          · exact absurd hs h.2.1
      · obtain ⟨d1, d2, d3, -, d5⟩ := done_facts hv' hr hwf hd
        refine ⟨d1, ?_, ?_⟩
        · intro q g hg
          by_cases hq1 : q = tempFilepath env name' rnd
          · subst hq1; rw [d3] at hg; cases hg
          · by_cases hq2 : q = getFilePathInCache env.cacheDir folder' name'
            · subst hq2; rw [d2] at hg; cases hg; exact hlo
            · rcases d5 q hq1 hq2 with h | h
              · rw [h] at hg; exact hX q g hg
              · rw [h.1] at hg; cases hg
        · intro folder name hv hsome
          by_cases hk : folder' = folder ∧ name' = name
          · obtain ⟨rfl, rfl⟩ := hk
            rw [d2]; rfl
          · rcases d5 _ (temp_ne_out hv hr).symm (other_entry hv' hv hk) with h | h
            · rw [h]; exact hsome
            · exact absurd hs h.2.1
    | lookup folder' name' now faults =>
      simp only [CacheCall.now] at hlo hhi
      have hv' : ValidKey env folder' name' := hvc
      have hst : LookupState env folder' name' now fs f := hst
      obtain ⟨l1, -⟩ := lookup_facts hv' hwf hst
      rcases hst with rfl | ⟨g, hg, ⟨hout, -⟩ | ⟨-, hlru, -⟩⟩
      · exact ⟨hwf, hX, fun _ _ _ h => h⟩
      · exfalso
        have hm := hX _ g hg
        unfold fileIsOutdated at hout
        simp only [gt_iff_lt, decide_eq_true_eq] at hout
        have hlt : now - g.mtime < (env.maxAge + 1) * minuteNs := by
          show now - g.mtime < (env.maxAge + 1) * 60000000000
          omega
        by_cases hneg : 0 ≤ now - g.mtime
        · rw [Int.tdiv_eq_ediv_of_nonneg hneg] at hout
          have := (Int.ediv_lt_iff_lt_mul (by decide : (0:Int) < minuteNs)).mpr hlt
          omega
        · have h2 := Int.tdiv_nonneg (a := -(now - g.mtime)) (b := minuteNs) (by omega) (by decide)
          rw [Int.neg_tdiv] at h2
          omega
      · rw [hs] at hlru; cases hlru
  -- the file exists when the call ends
  obtain ⟨hx1, hw1, hact⟩ := always (env := env) (Allowed := Allowed)
    (X := fun fs => fs.WF ∧ ∀ p f, fs.get p = some f → lo ≤ f.mtime)
    (fun call fs hc hX f hf => ⟨(hyoung hc hX.1 hX.2 hf).1, (hyoung hc hX.1 hX.2 hf).2.1⟩)
    (steady_start ⟨hwf, hold⟩) h1
  obtain ⟨hal, base, pre, ⟨hbwf, hbold⟩, hout, -⟩ := hact a ha
  obtain ⟨folder, name, hv, hp, hex⟩ : ∃ folder name, ValidKey env folder name ∧
      p = getFilePathInCache env.cacheDir folder name ∧ (a.out.fs.get p).isSome = true := by
    have hvc := (hall _ hal).1
    cases hc : a.call with
    | write folder name reader rnd now faults =>
      rw [hc] at hvc hout
      obtain ⟨hv, hr⟩ := hvc
      have hok : (cacheToFile env folder name reader rnd now faults 0 base).res = .ok p := by
        rw [hout] at hres
        unfold CacheCall.run at hres
        simp only at hres
        cases ho : (cacheToFile env folder name reader rnd now faults 0 base).res with
        | ok q => rw [ho] at hres; cases hres; rfl
        | err => rw [ho] at hres; cases hres
        | panic => rw [ho] at hres; cases hres
        | fatal => rw [ho] at hres; cases hres
      obtain ⟨e1, -, e3, -⟩ := C01_write_success env folder name reader rnd now faults 0 base hw hv hr hbwf p hok
      refine ⟨folder, name, hv, e1, ?_⟩
      rw [hout, (write_run_log folder name reader rnd now faults base).2, e3]; rfl
    | lookup folder name now faults =>
      rw [hc] at hvc hout
      rw [hout] at hres ⊢
      obtain ⟨e1, f, e2, -, g, e3, -⟩ := C07_usable_is_fresh env folder name now 0 base faults hvc p hres
      exact ⟨folder, name, hvc, e1, by
        show ((getFile env folder name now faults 0 base).fs.get p).isSome = true
        rw [e3]; rfl⟩
  have hs2 : s2.fs = a.out.fs ∧ s2.waiting = s1.waiting := by
    cases h12 with
    | invoke _ => exact absurd hunl (by simp [ha])
    | lock _ _ => simp at hunl
    | operate _ _ => simp at hunl
    | unlock ha' _ =>
      rw [ha] at ha'
      cases ha'
      exact ⟨rfl, rfl⟩
    | respond _ => exact absurd hunl (by simp [ha])
    | read => exact absurd hunl (by simp [ha])
  have hy := hyoung (f := a.out.fs) hal hbwf hbold (by rw [← hout]; simp)
  have := always (env := env) (Allowed := Allowed)
    (X := fun fs => (fs.WF ∧ ∀ p f, fs.get p = some f → lo ≤ f.mtime) ∧ (fs.get p).isSome = true)
    (fun call fs hc hX f hf => by
      obtain ⟨y1, y2, y3⟩ := hyoung hc hX.1.1 hX.1.2 hf
      exact ⟨⟨y1, y2⟩, by rw [hp]; exact y3 folder name hv (by rw [← hp]; exact hX.2)⟩)
    (s0 := s2) ⟨by rw [hs2.1]; exact ⟨⟨hy.1, hy.2.1⟩, hex⟩, by rw [hs2.2]; exact hw1, by simp [hunl]⟩ h23
  exact this.1.2

/-- A call that has the mutex can run to its end. -/
theorem run_to_end {s : Conc} {a : Active} (ha : s.active = some a) :
    ConcRun env Allowed s { s with
      fs := a.out.fs, active := none, completed := s.completed ++ [(a.id, a.call, a.out.res)] } := by
  have trans : ∀ {x y z : Conc}, ConcStep env Allowed x y → ConcRun env Allowed y z → ConcRun env Allowed x z := by
    intro x y z h1 h2
    induction h2 with
    | refl => exact .step (.refl _) h1
    | step _ h3 ih => exact .step ih h3
  obtain ⟨id, call, rest, out⟩ := a
  induction rest generalizing s with
  | nil => exact .step (.refl _) (.unlock ha rfl)
  | cons f rest ih => exact trans (.operate ha rfl) (ih (s := { s with fs := f, active := _ }) rfl)

/-- A thread calls a function of the cache while no other call is running, and gets its result. -/
theorem call_alone {s0 s : Conc} {call : CacheCall} (h : ConcRun env Allowed s0 s) (hall : Allowed call)
    (ha : s.active = none) (hw : s.waiting = []) :
    ConcRun env Allowed s0 { s with
      fs := (call.run env s.fs).fs, next := s.next + 1, active := none,
      completed := s.completed ++ [(s.next, call, (call.run env s.fs).res)],
      history := s.history ++ [.invoke s.next call] ++ [.respond s.next (call.run env s.fs).res] } := by
  have trans : ∀ {x y z : Conc}, ConcRun env Allowed x y → ConcRun env Allowed y z → ConcRun env Allowed x z := by
    intro x y z h1 h2
    induction h2 with
    | refl => exact h1
    | step _ h3 ih => exact .step ih h3
  have h1 := ConcRun.step h (ConcStep.invoke hall)
  have h2 := ConcRun.step h1 (ConcStep.lock (id := s.next) (call := call) (w1 := s.waiting) (w2 := []) ha rfl)
  have h3 := trans h2 (run_to_end rfl)
  have h4 := ConcRun.step h3 (ConcStep.respond (id := s.next) (call := call) (r := (call.run env s.fs).res)
    (by simp))
  simpa [hw] using h4

/-- **C21** (returned files) fails with an eviction strategy: one thread stores `a` and gets its path; before it
reads the file, another thread stores `b`, which evicts `a`; the first thread finds no file. -/
theorem C21_returned_file_can_vanish (st : Strategy) (hst : st ≠ .none) :
    ∃ s h1 h2, ConcRun (demoEnv st) (ValidCall (demoEnv st)) (Conc.start []) s ∧
      s.history = h1 ++ .respond 0 (.ok (b!"/c/images/a", true)) :: h2 ++ [.read b!"/c/images/a" none] := by
  have hv : ∀ name, name ∉ [b!"", b!".", b!".."] → ValidKey (demoEnv st) b!"images" name := fun name hn =>
    ⟨cache_folders_plain _ (by decide), by decide, hn, by
      show (cleanElems b!"/c").getLast? ≠ _
      decide⟩
  have hd : Digits b!"1" := by
    refine ⟨by decide, ?_⟩
    intro c hc
    simp only [List.mem_singleton] at hc
    subst hc
    decide
  have r1 := call_alone (call := .write b!"images" b!"a" ⟨b!"1234", true⟩ b!"1" 5 noFaults)
    (ConcRun.refl (env := demoEnv st) (Allowed := ValidCall (demoEnv st)) (Conc.start []))
    ⟨hv _ (by decide), hd⟩ rfl rfl
  have r2 := call_alone (call := .write b!"images" b!"b" ⟨b!"1234", true⟩ b!"1" 6 noFaults) r1
    ⟨hv _ (by decide), hd⟩ rfl rfl
  have r3 := ConcRun.step r2 (ConcStep.read (path := b!"/c/images/a"))
  refine ⟨_, [.invoke 0 (.write b!"images" b!"a" ⟨b!"1234", true⟩ b!"1" 5 noFaults)],
    [.invoke 1 (.write b!"images" b!"b" ⟨b!"1234", true⟩ b!"1" 6 noFaults),
      .respond 1 (.ok (b!"/c/images/b", true))], r3, ?_⟩
  cases st with
  | none => exact absurd rfl hst
  | largest => rfl
  | lru => rfl

/-- The hypotheses of `C21_readers_see_complete_files` and `C21_returned_file_stays_partial` are satisfiable. -/
example : WalkOk (demoEnv .none) ∧ (demoEnv .none).strategy = .none ∧
    (100 : Int) - 5 < ((demoEnv .none).maxAge + 1) * 60000000000 ∧
    ConcRun (demoEnv .none) (fun _ => True) (Conc.start demoFs) (Conc.start demoFs) :=
  ⟨fun _ => List.Perm.refl _, rfl, by decide, .refl _⟩

end Verif.Props
