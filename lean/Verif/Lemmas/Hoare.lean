import Verif.Model.FileSystem
import Verif.Lemmas.Path

/-! Program logic for the file-system functions and lemmas about file systems. -/

namespace Verif.Lemmas

open Verif.Go Verif.Model

namespace FSl

theorem get_erase_self (fs : FS) (p : Str) : (fs.erase p).get p = none := by
  simp only [FS.get, FS.erase, Option.map_eq_none_iff, List.find?_eq_none, List.mem_filter]
  rintro e ⟨_, h⟩ he
  simp at h he
  exact h he

theorem get_erase_ne {fs : FS} {p q : Str} (h : q ≠ p) : (fs.erase p).get q = fs.get q := by
  unfold FS.get FS.erase
  congr 1
  induction fs with
  | nil => rfl
  | cons e t ih =>
    by_cases he : e.1 = p
    · have : ¬ e.1 = q := fun e' => h (e'.symm.trans he)
      rw [List.filter_cons_of_neg (by simpa using he), ih, List.find?_cons_of_neg (by simpa using this)]
    · rw [List.filter_cons_of_pos (by simpa using he)]
      by_cases hq : e.1 = q
      · rw [List.find?_cons_of_pos (by simpa using hq), List.find?_cons_of_pos (by simpa using hq)]
      · rw [List.find?_cons_of_neg (by simpa using hq), List.find?_cons_of_neg (by simpa using hq), ih]

theorem get_put_self (fs : FS) (p : Str) (f : File) : (fs.put p f).get p = some f := by
  simp [FS.get, FS.put]

theorem get_put_ne {fs : FS} {p q : Str} {f : File} (h : q ≠ p) : (fs.put p f).get q = fs.get q := by
  rw [← get_erase_ne (fs := fs) h]
  have : ¬ p = q := fun e => h e.symm
  simp [FS.get, FS.put, this]

theorem mem_of_get {fs : FS} {p : Str} {f : File} (h : fs.get p = some f) : (p, f) ∈ fs := by
  unfold FS.get at h
  simp only [Option.map_eq_some_iff] at h
  obtain ⟨e, he, rfl⟩ := h
  have h1 := List.find?_some he
  have h2 := List.mem_of_find?_eq_some he
  simp at h1
  subst h1
  exact h2

theorem get_of_mem {fs : FS} (hw : fs.WF) {e : Str × File} (h : e ∈ fs) : fs.get e.1 = some e.2 := by
  induction fs with
  | nil => simp at h
  | cons a t ih =>
    simp only [FS.WF, List.map_cons, List.nodup_cons] at hw
    unfold FS.get
    by_cases ha : a.1 = e.1
    · rw [List.find?_cons_of_pos (by simpa using ha)]
      rcases List.mem_cons.mp h with rfl | h
      · rfl
      · exact absurd (List.mem_map.mpr ⟨e, h, ha.symm⟩) hw.1
    · rw [List.find?_cons_of_neg (by simpa using ha)]
      rcases List.mem_cons.mp h with rfl | h
      · exact absurd rfl ha
      · exact ih hw.2 h

theorem get_isSome_of_mem {fs : FS} {e : Str × File} (h : e ∈ fs) : ∃ f, fs.get e.1 = some f := by
  unfold FS.get
  cases hf : fs.find? (fun x => x.1 == e.1) with
  | none => 
    rw [List.find?_eq_none] at hf
    exact absurd (by simp) (hf e h)
  | some x => exact ⟨x.2, rfl⟩

theorem WF_erase {fs : FS} (h : fs.WF) (p : Str) : (fs.erase p).WF := by
  unfold FS.WF FS.erase at *
  exact h.sublist (List.filter_sublist.map _)

theorem WF_put {fs : FS} (h : fs.WF) (p : Str) (f : File) : (fs.put p f).WF := by
  unfold FS.put
  have h1 := WF_erase h p
  unfold FS.WF at *
  rw [List.map_cons, List.nodup_cons]
  refine ⟨?_, h1⟩
  simp [FS.erase]

theorem totalSize_cons (e : Str × File) (l : List (Str × File)) :
    totalSize (e :: l) = e.2.size + totalSize l := by
  simp [totalSize]

theorem size_nonneg (f : File) : 0 ≤ f.size := by simp [File.size]

theorem totalSize_nonneg (l : List (Str × File)) : 0 ≤ totalSize l := by
  induction l with
  | nil => simp [totalSize]
  | cons e t ih => rw [totalSize_cons]; have := size_nonneg e.2; omega

/-- Size of the files satisfying `q` after the removal of one file. -/
theorem totalSize_erase {fs : FS} (hw : fs.WF) {p : Str} {f : File} (h : fs.get p = some f)
    (q : Str → Bool) :
    totalSize ((fs.erase p).filter fun e => q e.1) =
      totalSize (fs.filter fun e => q e.1) - (if q p then f.size else 0) := by
  induction fs with
  | nil => simp [FS.get] at h
  | cons a t ih =>
    have hw' := hw
    simp only [FS.WF, List.map_cons, List.nodup_cons] at hw
    by_cases ha : a.1 = p
    · have hf : a.2 = f := by
        unfold FS.get at h
        rw [List.find?_cons_of_pos (by simpa using ha)] at h
        simpa using h
      have ht : FS.erase (a :: t) p = t := by
        unfold FS.erase
        rw [List.filter_cons_of_neg (by simpa using ha), List.filter_eq_self]
        intro x hx
        simp only [ne_eq, decide_not, Bool.not_eq_eq_eq_not, Bool.not_true, decide_eq_false_iff_not]
        intro hxp
        exact hw.1 (List.mem_map.mpr ⟨x, hx, hxp.trans ha.symm⟩)
      rw [ht]
      by_cases hq : q p
      · rw [List.filter_cons_of_pos (by simpa [ha] using hq), totalSize_cons, hf]
        simp [hq]; omega
      · rw [List.filter_cons_of_neg (by simpa [ha] using hq)]
        simp [hq]
    · have hg : FS.get t p = some f := by
        unfold FS.get at h ⊢
        rwa [List.find?_cons_of_neg (by simpa using ha)] at h
      have := ih hw.2 hg
      have ht : FS.erase (a :: t) p = a :: FS.erase t p := by
        unfold FS.erase
        rw [List.filter_cons_of_pos (by simpa using ha)]
      rw [ht]
      by_cases hq : q a.1
      · rw [List.filter_cons_of_pos (by simpa using hq), List.filter_cons_of_pos (by simpa using hq),
          totalSize_cons, totalSize_cons, this]
        omega
      · rw [List.filter_cons_of_neg (by simpa using hq), List.filter_cons_of_neg (by simpa using hq), this]

theorem erase_of_get_none {fs : FS} {p : Str} (h : fs.get p = none) : fs.erase p = fs := by
  unfold FS.erase
  rw [List.filter_eq_self]
  intro e he
  simp only [ne_eq, decide_not, Bool.not_eq_eq_eq_not, Bool.not_true, decide_eq_false_iff_not]
  rintro rfl
  obtain ⟨f, hf⟩ := get_isSome_of_mem he
  rw [hf] at h; cases h

theorem put_put (fs : FS) (p : Str) (f g : File) : (fs.put p f).put p g = fs.put p g := by
  simp [FS.put, FS.erase]

theorem erase_put (fs : FS) (p : Str) (f : File) : (fs.put p f).erase p = fs.erase p := by
  simp [FS.put, FS.erase]

/-- Size of the files satisfying `q` after creating or replacing one file. -/
theorem totalSize_put {fs : FS} (hw : fs.WF) (p : Str) (f : File) (q : Str → Bool) :
    totalSize ((fs.put p f).filter fun e => q e.1) =
      totalSize (fs.filter fun e => q e.1)
        + (if q p then f.size - (match fs.get p with | some g => g.size | none => 0) else 0) := by
  have h1 : totalSize ((fs.put p f).filter fun e => q e.1) =
      totalSize ((fs.erase p).filter fun e => q e.1) + (if q p then f.size else 0) := by
    unfold FS.put
    by_cases hq : q p
    · rw [List.filter_cons_of_pos (by simpa using hq), totalSize_cons]
      simp [hq]; omega
    · rw [List.filter_cons_of_neg (by simpa using hq)]
      simp [hq]
  rw [h1]
  cases hg : fs.get p with
  | none => rw [erase_of_get_none hg]; simp
  | some g =>
    rw [totalSize_erase hw hg]
    split
    · simp; omega
    · simp

end FSl

/-- Partial-correctness specification of a function under the given faults: started in a state satisfying
`P`, every crash point satisfies `I`, a normal return satisfies `Q`, every other end satisfies `E`. -/
def Sat (ff : Nat → Bool) (I P : FS → Prop) (m : FsM α) (Q : α → FS → Prop) (E : FS → Prop) : Prop :=
  ∀ n fs, P fs → (∀ s ∈ (m ff n fs).log, I s) ∧
    (match (m ff n fs).res with
      | .ok a => Q a (m ff n fs).fs
      | _ => E (m ff n fs).fs)

namespace Sat

variable {ff : Nat → Bool} {I P P' E E' : FS → Prop} {Q Q' : α → FS → Prop}

theorem pure {a : α} (h : ∀ fs, P fs → Q a fs) : Sat ff I P (Pure.pure a : FsM α) Q E := by
  intro n fs hP
  refine ⟨?_, h fs hP⟩
  intro s hs
  simp [Pure.pure, FsM.pure] at hs

theorem bind {m : FsM α} {f : α → FsM β} {R : α → FS → Prop} {Q : β → FS → Prop}
    (h1 : Sat ff I P m R E) (h2 : ∀ a, Sat ff I (R a) (f a) Q E) : Sat ff I P (m >>= f) Q E := by
  intro n fs hP
  have hm := h1 n fs hP
  simp only [Bind.bind, FsM.bind]
  cases hr : (m ff n fs).res with
  | ok a =>
    rw [hr] at hm
    have hf := h2 a (m ff n fs).step (m ff n fs).fs hm.2
    simp only
    refine ⟨?_, hf.2⟩
    intro s hs
    rcases List.mem_append.mp hs with hs | hs
    · exact hm.1 s hs
    · exact hf.1 s hs
  | err => rw [hr] at hm; exact hm
  | panic => rw [hr] at hm; exact hm
  | fatal => rw [hr] at hm; exact hm

theorem weakenI {I' : FS → Prop} {m : FsM α} (h : Sat ff I' P m Q E) (hI : ∀ s, I' s → I s) :
    Sat ff I P m Q E := fun n fs hp => ⟨fun s hs => hI s ((h n fs hp).1 s hs), (h n fs hp).2⟩

/-- It suffices to look at each start state separately. -/
theorem ofEq {m : FsM α} (h : ∀ fs0, P fs0 → Sat ff I (fun fs => fs = fs0) m Q E) : Sat ff I P m Q E :=
  fun n fs hp => h fs hp n fs rfl

theorem weaken {m : FsM α} (h : Sat ff I P m Q E) (hP : ∀ fs, P' fs → P fs)
    (hQ : ∀ a fs, Q a fs → Q' a fs) (hE : ∀ fs, E fs → E' fs) : Sat ff I P' m Q' E' := by
  intro n fs hp
  have := h n fs (hP fs hp)
  refine ⟨this.1, ?_⟩
  cases hr : (m ff n fs).res <;> rw [hr] at this <;> first | exact hQ _ _ this.2 | exact hE _ this.2

theorem prim {f : FS → Res α × FS}
    (hfault : (∃ k, ff k = true) → ∀ fs, P fs → I fs ∧ E fs)
    (h : ∀ fs, P fs → I (f fs).2 ∧ (match (f fs).1 with | .ok a => Q a (f fs).2 | _ => E (f fs).2)) :
    Sat ff I P (FsM.prim f) Q E := by
  intro n fs hP
  unfold FsM.prim
  split
  · rename_i hn
    have := hfault ⟨n, hn⟩ fs hP
    exact ⟨by simpa using this.1, this.2⟩
  · have := h fs hP
    exact ⟨by simpa using this.1, this.2⟩

theorem attempt_prim {f : FS → Res α × FS} {Q : Option α → FS → Prop}
    (hfault : (∃ k, ff k = true) → ∀ fs, P fs → I fs ∧ Q none fs)
    (h : ∀ fs, P fs → I (f fs).2 ∧ (match (f fs).1 with
      | .ok a => Q (some a) (f fs).2
      | .err => Q none (f fs).2
      | _ => E (f fs).2)) :
    Sat ff I P (FsM.attempt (FsM.prim f)) Q E := by
  intro n fs hP
  by_cases hn : ff n = true
  · simp only [FsM.attempt, FsM.prim, hn, if_true]
    have := hfault ⟨n, hn⟩ fs hP
    exact ⟨by simpa using this.1, this.2⟩
  · simp only [FsM.attempt, FsM.prim, hn]
    have := h fs hP
    generalize f fs = o at this ⊢
    obtain ⟨r, fs'⟩ := o
    cases r <;> exact ⟨by simpa using this.1, this.2⟩

theorem deferred {m : FsM α} {fin : FsM Unit} {E0 : FS → Prop} {Q0 : α → FS → Prop}
    (h : Sat ff I P m Q0 E0) (hfin : ∀ a, Sat ff I (Q0 a) fin (fun _ => Q a) (Q a))
    (hfinE : Sat ff I E0 fin (fun _ => E) E) (hfatal : ∀ fs, E0 fs → E fs) :
    Sat ff I P (FsM.deferred m fin) Q E := by
  intro n fs hP
  have hm := h n fs hP
  simp only [FsM.deferred]
  generalize m ff n fs = o at hm ⊢
  obtain ⟨r, fs', k, l⟩ := o
  have key : ∀ {E0 E1 : FS → Prop}, Sat ff I E0 fin (fun _ => E1) E1 → (∀ s ∈ l, I s) → E0 fs' →
      (∀ s ∈ l ++ (fin ff k fs').log, I s) ∧ E1 (fin ff k fs').fs := by
    intro E0 E1 hf hl h0
    have := hf k fs' h0
    refine ⟨?_, ?_⟩
    · intro s hs
      rcases List.mem_append.mp hs with hs | hs
      · exact hl s hs
      · exact this.1 s hs
    · cases hr : (fin ff k fs').res <;> rw [hr] at this <;> exact this.2
  cases r with
  | ok a => exact key (hfin a) hm.1 hm.2
  | err => exact key hfinE hm.1 hm.2
  | panic => exact key hfinE hm.1 hm.2
  | fatal => exact ⟨hm.1, hfatal _ hm.2⟩

theorem throwErr (h : ∀ fs, P fs → E fs) : Sat ff I P (FsM.throwErr : FsM α) Q E := by
  intro n fs hP
  exact ⟨by simp [FsM.throwErr], h fs hP⟩

theorem throwFatal (h : ∀ fs, P fs → E fs) : Sat ff I P (FsM.throwFatal : FsM α) Q E := by
  intro n fs hP
  exact ⟨by simp [FsM.throwFatal], h fs hP⟩

end Sat

end Verif.Lemmas
