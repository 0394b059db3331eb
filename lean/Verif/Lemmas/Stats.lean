import Verif.Model.Stats
import Mathlib.Data.List.Perm.Basic
import Mathlib.Data.List.Sort
import Mathlib.Algebra.BigOperators.Group.List.Basic

/-! Helper lemmas about counters. -/

namespace Verif.Model
open Verif.Go

/-- The keys of a map. -/
def Counts.keys (m : Counts) : List Str := m.map Prod.fst

/-- The sum of the entries with a key in a list of pairs, also if the key occurs several times. -/
def Counts.total : Counts → Str → Int
  | [], _ => 0
  | (k, v) :: rest, key => (if k = key then v else 0) + Counts.total rest key

theorem Counts.get_nil (key : Str) : Counts.get [] key = 0 := rfl

theorem Counts.get_cons (k : Str) (v : Int) (rest : Counts) (key : Str) :
    Counts.get ((k, v) :: rest) key = if k = key then v else Counts.get rest key := by
  unfold Counts.get
  rw [List.lookup_cons]
  by_cases h : k = key
  · simp [h]
  · have : (key == k) = false := by simp [Ne.symm h]
    simp [h, this]

theorem Counts.get_not_mem {m : Counts} {key : Str} (h : key ∉ m.keys) : m.get key = 0 := by
  induction m with
  | nil => rfl
  | cons p rest ih =>
    obtain ⟨k, v⟩ := p
    simp only [Counts.keys, List.map_cons, List.mem_cons, not_or] at h
    rw [Counts.get_cons, if_neg (Ne.symm h.1)]
    exact ih h.2

theorem Counts.total_not_mem {m : Counts} {key : Str} (h : key ∉ m.keys) : m.total key = 0 := by
  induction m with
  | nil => rfl
  | cons p rest ih =>
    obtain ⟨k, v⟩ := p
    simp only [Counts.keys, List.map_cons, List.mem_cons, not_or] at h
    rw [Counts.total, if_neg (Ne.symm h.1), ih h.2]
    simp

theorem Counts.total_eq_get {m : Counts} (h : m.keys.Nodup) (key : Str) : m.total key = m.get key := by
  induction m with
  | nil => rfl
  | cons p rest ih =>
    obtain ⟨k, v⟩ := p
    simp only [Counts.keys, List.map_cons, List.nodup_cons] at h
    rw [Counts.total, Counts.get_cons, ih h.2]
    by_cases hk : k = key
    · subst hk
      rw [if_pos rfl, if_pos rfl, Counts.get_not_mem h.1]
      simp
    · simp [hk]

theorem Counts.total_perm {m m' : Counts} (h : m.Perm m') (key : Str) : m.total key = m'.total key := by
  induction h with
  | nil => rfl
  | cons p _ ih => obtain ⟨k, v⟩ := p; rw [Counts.total, Counts.total, ih]
  | swap p q l =>
    obtain ⟨k, v⟩ := p; obtain ⟨k', v'⟩ := q
    simp only [Counts.total]; omega
  | trans _ _ ih ih' => rw [ih, ih']

theorem Counts.get_perm {m m' : Counts} (h : m.Perm m') (hn : m.keys.Nodup) (key : Str) : m.get key = m'.get key := by
  rw [← Counts.total_eq_get hn, Counts.total_perm h, Counts.total_eq_get]
  exact (h.map Prod.fst).nodup_iff.mp hn

theorem Counts.get_add (m : Counts) (key : Str) (n : Int) (key' : Str) :
    (m.add key n).get key' = m.get key' + if key = key' then n else 0 := by
  induction m with
  | nil => rw [Counts.add, Counts.get_cons]; simp [Counts.get_nil]
  | cons p rest ih =>
    obtain ⟨k, v⟩ := p
    rw [Counts.add]
    by_cases h : k = key
    · subst h
      rw [if_pos rfl, Counts.get_cons, Counts.get_cons]
      by_cases h' : k = key' <;> simp [h']
    · rw [if_neg h, Counts.get_cons, Counts.get_cons, ih]
      by_cases h' : k = key'
      · subst h'; simp [Ne.symm h]
      · simp [h']

theorem Counts.mem_keys_add (m : Counts) (key : Str) (n : Int) (key' : Str) :
    key' ∈ (m.add key n).keys ↔ key' ∈ m.keys ∨ key' = key := by
  induction m with
  | nil => simp [Counts.add, Counts.keys]
  | cons p rest ih =>
    obtain ⟨k, v⟩ := p
    rw [Counts.add]
    by_cases h : k = key
    · subst h
      simp [Counts.keys]
      tauto
    · rw [if_neg h]
      simp only [Counts.keys, List.map_cons, List.mem_cons] at ih ⊢
      rw [ih]
      tauto

theorem Counts.nodup_add {m : Counts} (h : m.keys.Nodup) (key : Str) (n : Int) : (m.add key n).keys.Nodup := by
  induction m with
  | nil => simp [Counts.add, Counts.keys]
  | cons p rest ih =>
    obtain ⟨k, v⟩ := p
    simp only [Counts.keys, List.map_cons, List.nodup_cons] at h
    rw [Counts.add]
    by_cases hk : k = key
    · subst hk
      rw [if_pos rfl]
      simp only [Counts.keys, List.map_cons, List.nodup_cons]
      exact h
    · rw [if_neg hk]
      simp only [Counts.keys, List.map_cons, List.nodup_cons]
      refine ⟨fun hm => ?_, ih h.2⟩
      rcases (Counts.mem_keys_add rest key n k).mp hm with h' | h'
      · exact h.1 h'
      · exact hk h'

/-- Adding all entries of `l` to `m`. -/
theorem Counts.foldl_add (l m : Counts) (hm : m.keys.Nodup) :
    (∀ key, (l.foldl (fun m p => Counts.add m p.1 p.2) m).get key = m.get key + l.total key) ∧
    (∀ key, key ∈ (l.foldl (fun m p => Counts.add m p.1 p.2) m).keys ↔ key ∈ m.keys ∨ key ∈ l.keys) ∧
    (l.foldl (fun m p => Counts.add m p.1 p.2) m).keys.Nodup := by
  induction l generalizing m with
  | nil => simp [Counts.total, Counts.keys]; exact hm
  | cons p rest ih =>
    obtain ⟨k, v⟩ := p
    obtain ⟨i1, i2, i3⟩ := ih (m.add k v) (Counts.nodup_add hm k v)
    rw [List.foldl_cons]
    refine ⟨fun key => ?_, fun key => ?_, i3⟩
    · rw [i1, Counts.get_add, Counts.total]; omega
    · rw [i2, Counts.mem_keys_add]
      simp only [Counts.keys, List.map_cons, List.mem_cons]
      tauto

theorem Counts.mem_iff {m : Counts} (h : m.keys.Nodup) (k : Str) (v : Int) : (k, v) ∈ m ↔ k ∈ m.keys ∧ m.get k = v := by
  induction m with
  | nil => simp [Counts.keys]
  | cons p rest ih =>
    obtain ⟨k', v'⟩ := p
    simp only [Counts.keys, List.map_cons, List.nodup_cons] at h
    rw [Counts.get_cons]
    simp only [Counts.keys, List.map_cons, List.mem_cons, Prod.mk.injEq] at ih ⊢
    rw [ih h.2]
    by_cases hk : k' = k
    · subst hk
      simp only [true_and, if_true]
      constructor
      · rintro (rfl | ⟨h1, -⟩)
        · simp
        · exact absurd h1 h.1
      · rintro ⟨-, rfl⟩
        simp
    · simp [hk, Ne.symm hk]

/-- Maps with the same keys and numbers are the same up to the order of iteration. -/
theorem Counts.perm_of {m m' : Counts} (h : m.keys.Nodup) (h' : m'.keys.Nodup) (hk : ∀ k, k ∈ m.keys ↔ k ∈ m'.keys)
    (hg : ∀ k ∈ m.keys, m.get k = m'.get k) : m.Perm m' := by
  rw [List.perm_ext_iff_of_nodup h.of_map h'.of_map]
  rintro ⟨k, v⟩
  rw [Counts.mem_iff h, Counts.mem_iff h', ← hk]
  exact and_congr_right fun hm => by rw [hg k hm]

/-- A key that is not there is appended. -/
theorem Counts.add_new {m : Counts} {key : Str} (h : key ∉ m.keys) (n : Int) : m.add key n = m ++ [(key, n)] := by
  induction m with
  | nil => rfl
  | cons p rest ih =>
    obtain ⟨k, v⟩ := p
    simp only [Counts.keys, List.map_cons, List.mem_cons, not_or] at h
    rw [Counts.add, if_neg (Ne.symm h.1), ih h.2]
    rfl

theorem Counts.set_new {m : Counts} {key : Str} (h : key ∉ m.keys) (n : Int) : m.set key n = m ++ [(key, n)] := by
  induction m with
  | nil => rfl
  | cons p rest ih =>
    obtain ⟨k, v⟩ := p
    simp only [Counts.keys, List.map_cons, List.mem_cons, not_or] at h
    rw [Counts.set, if_neg (Ne.symm h.1), ih h.2]
    rfl

/-- The loop over all links: those that are not covered, in the order of the iteration. -/
theorem foldl_addUncovered (articles : List Str) (l : Counts) (r : Counts × List Str) (hr : r.2 = r.1.keys)
    (hn : (r.1.keys ++ l.keys).Nodup) :
    l.foldl (addUncovered articles) r =
      (r.1 ++ l.filter (fun p => decide (p.1 ∉ articles)), r.2 ++ Counts.keys (l.filter (fun p => decide (p.1 ∉ articles)))) := by
  induction l generalizing r with
  | nil => simp [Counts.keys]
  | cons p rest ih =>
    obtain ⟨k, v⟩ := p
    rw [List.foldl_cons]
    have hk : k ∉ r.1.keys := by
      intro h
      rw [List.nodup_append] at hn
      exact hn.2.2 k h k (by simp [Counts.keys]) rfl
    by_cases ha : k ∈ articles
    · have e : addUncovered articles r (k, v) = r := by simp [addUncovered, ha]
      rw [e, ih r hr]
      · simp [ha]
      · refine hn.sublist ?_
        simp [Counts.keys]
    · have e : addUncovered articles r (k, v) = (r.1 ++ [(k, v)], r.2 ++ [k]) := by
        simp [addUncovered, ha, Counts.add_new hk]
      rw [e, ih]
      · simp [ha, Counts.keys]
      · simp [hr, Counts.keys]
      · simpa [Counts.keys] using hn

theorem foldl_set (f : Str → Int) (names : List Str) (m : Counts) (hn : (m.keys ++ names).Nodup) :
    names.foldl (fun m name => Counts.set m name (f name)) m = m ++ names.map (fun name => (name, f name)) := by
  induction names generalizing m with
  | nil => simp
  | cons k rest ih =>
    have hk : k ∉ m.keys := by
      intro h
      rw [List.nodup_append] at hn
      exact hn.2.2 k h k (by simp) rfl
    rw [List.foldl_cons, Counts.set_new hk, ih]
    · simp
    · simpa [Counts.keys] using hn

/-- The loop over the files. -/
theorem readStats_ok (env : StatsEnv) (files : List Str) (i : Nat) (combined : ArticleStats) (articles : List Str)
    (r : ArticleStats × List Str) (h : readStats env files i combined articles = .ok r) :
    ∃ all : List ArticleStats, files.map env.read = all.map some ∧ r.2 = articles ++ all.map (·.articleName) ∧
      r.1.numberOfCharacters = combined.numberOfCharacters + (all.map (·.numberOfCharacters)).sum ∧
      r.1.numberOfWords = combined.numberOfWords + (all.map (·.numberOfWords)).sum ∧
      r.1.numberOfInternalLinks = combined.numberOfInternalLinks + (all.map (·.numberOfInternalLinks)).sum ∧
      r.1.numberOfExternalLinks = combined.numberOfExternalLinks + (all.map (·.numberOfExternalLinks)).sum ∧
      r.1.numberOfImages = combined.numberOfImages + (all.map (·.numberOfImages)).sum ∧
      r.1.numberOfMath = combined.numberOfMath + (all.map (·.numberOfMath)).sum ∧
      r.1.numberOfRefDefinitions = combined.numberOfRefDefinitions + (all.map (·.numberOfRefDefinitions)).sum ∧
      r.1.numberOfRefUsages = combined.numberOfRefUsages + (all.map (·.numberOfRefUsages)).sum ∧
      r.1.estimatedReadingTimeMinutes = combined.estimatedReadingTimeMinutes + (all.map (·.estimatedReadingTimeMinutes)).sum := by
  induction files generalizing i combined articles with
  | nil =>
    simp only [readStats, Res.ok.injEq] at h
    subst h
    exact ⟨[], by simp⟩
  | cons f rest ih =>
    rw [readStats] at h
    rcases hf : env.read f with _ | stats
    · rw [hf] at h; simp at h
    · rw [hf] at h
      dsimp only at h
      obtain ⟨all, a0, a1, a2, a3, a4, a5, a6, a7, a8, a9, a10⟩ := ih _ _ _ h
      refine ⟨stats :: all, by simp [hf, a0], by simp [a1], ?_⟩
      simp only [addStats] at a2 a3 a4 a5 a6 a7 a8 a9 a10
      simp only [List.map_cons, List.sum_cons]
      refine ⟨?_, ?_, ?_, ?_, ?_, ?_, ?_, ?_, ?_⟩ <;> omega

theorem readStats_links (env : StatsEnv) (hrange : ∀ i m, (env.range i m).Perm m) (files : List Str) (i : Nat) (combined : ArticleStats) (articles : List Str)
    (hc : combined.internalLinks.keys.Nodup)
    (hread : ∀ f stats, env.read f = some stats → stats.internalLinks.keys.Nodup)
    (all : List ArticleStats) (ha : files.map env.read = all.map some) :
    ∃ c, readStats env files i combined articles = .ok (c, articles ++ all.map (·.articleName)) ∧
      (∀ key, c.internalLinks.get key = combined.internalLinks.get key + (all.map (·.internalLinks.get key)).sum) ∧
      (∀ key, key ∈ c.internalLinks.keys ↔ key ∈ combined.internalLinks.keys ∨ ∃ s ∈ all, key ∈ s.internalLinks.keys) ∧
      c.internalLinks.keys.Nodup := by
  induction files generalizing i combined articles all with
  | nil =>
    obtain rfl : all = [] := by simpa using ha.symm
    exact ⟨combined, by simp [readStats], by simp, by simp, hc⟩
  | cons f rest ih =>
    rcases all with _ | ⟨stats, all⟩
    · simp at ha
    simp only [List.map_cons, List.cons.injEq] at ha
    have hn := hread f stats ha.1
    have hp := hrange i stats.internalLinks
    have hn' : (env.range i stats.internalLinks).keys.Nodup := (hp.map Prod.fst).nodup_iff.mpr hn
    obtain ⟨f1, f2, f3⟩ := Counts.foldl_add (env.range i stats.internalLinks) combined.internalLinks hc
    obtain ⟨c, c1, c2, c3, c4⟩ := ih (i + 1) (addStats env i combined stats) (articles ++ [stats.articleName]) f3 all ha.2
    refine ⟨c, ?_, fun key => ?_, fun key => ?_, c4⟩
    · rw [readStats, ha.1]
      dsimp only
      rw [c1]
      simp
    · rw [c2]
      simp only [addStats, f1]
      rw [Counts.total_perm hp, Counts.total_eq_get hn]
      simp; omega
    · rw [c3]
      simp only [addStats, f2]
      have : key ∈ (env.range i stats.internalLinks).keys ↔ key ∈ stats.internalLinks.keys := (hp.map Prod.fst).mem_iff
      rw [this]
      simp [or_assoc]

end Verif.Model
