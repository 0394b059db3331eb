import Verif.Lemmas.Stats

/-!
# Statistics (C43)
-/

namespace Verif.Props
open Verif.Go Verif.Model

/-- What the Go runtime and the JSON library guarantee: a loop over a map visits each entry once, in any order; sorting
gives a descending order, elements with equal numbers are in any order; a decoded map has each key once. -/
structure Honest (env : StatsEnv) : Prop where
  range : ∀ i m, (env.range i m).Perm m
  sort : ∀ f l, (env.sort f l).Perm l
  sorted : ∀ f l, (env.sort f l).Pairwise (fun a b => f b ≤ f a)
  read : ∀ f stats, env.read f = some stats → stats.internalLinks.keys.Nodup

/-- The number of links to an article in all articles of the book. -/
def linksTo (all : List ArticleStats) (name : Str) : Int := (all.map (·.internalLinks.get name)).sum

/-- Some article of the book has a link to `name`, and `name` is not the name of an article of the book. -/
def Uncovered (all : List ArticleStats) (name : Str) : Prop :=
  (∃ s ∈ all, name ∈ s.internalLinks.keys) ∧ ∀ s ∈ all, s.articleName ≠ name

/-- The result in all details. -/
theorem combinedStats_ok (env : StatsEnv) (he : Honest env) (outputType : Str)
    (ht : outputType = b!"stats-json" ∨ outputType = b!"stats-txt") (files : List Str) (all : List ArticleStats)
    (ha : files.map env.read = all.map some) :
    ∃ c, combinedStats env outputType files = .ok c ∧
      (c.numberOfCharacters = (all.map (·.numberOfCharacters)).sum ∧
      c.numberOfWords = (all.map (·.numberOfWords)).sum ∧
      c.numberOfInternalLinks = (all.map (·.numberOfInternalLinks)).sum ∧
      c.numberOfExternalLinks = (all.map (·.numberOfExternalLinks)).sum ∧
      c.numberOfImages = (all.map (·.numberOfImages)).sum ∧
      c.numberOfMath = (all.map (·.numberOfMath)).sum ∧
      c.numberOfRefDefinitions = (all.map (·.numberOfRefDefinitions)).sum ∧
      c.numberOfRefUsages = (all.map (·.numberOfRefUsages)).sum ∧
      c.estimatedReadingTimeMinutes = (all.map (·.estimatedReadingTimeMinutes)).sum) ∧
      (∀ name, c.internalLinks.get name = linksTo all name) ∧
      (∀ name, name ∈ c.internalLinks.keys ↔ ∃ s ∈ all, name ∈ s.internalLinks.keys) ∧
      c.internalLinks.keys.Nodup ∧
      c.uncoveredInternalLinks.keys.Nodup ∧
      (∀ name, name ∈ c.uncoveredInternalLinks.keys ↔ Uncovered all name) ∧
      (∀ name, Uncovered all name → c.uncoveredInternalLinks.get name = linksTo all name) ∧
      (∃ names : List Str, names.Perm c.uncoveredInternalLinks.keys ∧ names.Pairwise (fun a b => linksTo all b ≤ linksTo all a) ∧
        c.top10UncoveredInternalLinks = (names.take 10).map fun name => (name, linksTo all name)) := by
  obtain ⟨c, c1, c2, c3, c4⟩ := readStats_links env he.range files 0 {} [] (by simp [Counts.keys]) he.read all ha
  obtain ⟨all', a0, -, a⟩ := readStats_ok env files 0 {} [] _ c1
  obtain rfl : all' = all := by
    rw [ha] at a0
    exact List.map_injective_iff.mpr (fun _ _ h => Option.some.inj h) a0.symm
  have hget : ∀ name, c.internalLinks.get name = linksTo all' name := fun name => by
    rw [c2]; simp [Counts.get_nil, linksTo]
  have hp := he.range files.length c.internalLinks
  have hn : (env.range files.length c.internalLinks).keys.Nodup := (hp.map Prod.fst).nodup_iff.mpr c4
  have hfold := foldl_addUncovered (all'.map (·.articleName)) (env.range files.length c.internalLinks) ([], []) rfl
    (by simpa [Counts.keys] using hn)
  simp only [List.nil_append] at hfold
  -- the links that are not covered
  let unc : Counts := (env.range files.length c.internalLinks).filter (fun p => decide (p.1 ∉ all'.map (·.articleName)))
  have hunc : (env.range files.length c.internalLinks).foldl (addUncovered (all'.map (·.articleName))) ([], []) = (unc, unc.keys) := hfold
  have hsub : List.Sublist unc (env.range files.length c.internalLinks) := List.filter_sublist
  have un : unc.keys.Nodup := hn.sublist (hsub.map Prod.fst)
  have ukeys : ∀ name, name ∈ unc.keys ↔ Uncovered all' name := by
    intro name
    have h1 : name ∈ unc.keys ↔ name ∈ (env.range files.length c.internalLinks).keys ∧ name ∉ all'.map (·.articleName) := by
      simp only [Counts.keys, List.mem_map, unc, List.mem_filter, decide_eq_true_eq]
      constructor
      · rintro ⟨p, ⟨hp1, hp2⟩, rfl⟩
        exact ⟨⟨p, hp1, rfl⟩, hp2⟩
      · rintro ⟨⟨p, hp1, rfl⟩, hp2⟩
        exact ⟨p, ⟨hp1, hp2⟩, rfl⟩
    have h2 : name ∈ (env.range files.length c.internalLinks).keys ↔ name ∈ c.internalLinks.keys := (hp.map Prod.fst).mem_iff
    rw [h1, h2, c3]
    simp [Uncovered, Counts.keys]
  have uget : ∀ name, name ∈ unc.keys → unc.get name = linksTo all' name := by
    intro name hm
    rw [← hget, ← Counts.get_perm hp hn, ← Counts.total_eq_get un, ← Counts.total_eq_get hn]
    have hm' := ((ukeys name).mp hm).2
    have : ∀ l : Counts, Counts.total (l.filter (fun p => decide (p.1 ∉ all'.map (·.articleName)))) name = l.total name := by
      intro l
      induction l with
      | nil => rfl
      | cons p rest ih =>
        obtain ⟨k, v⟩ := p
        by_cases hk : k ∈ all'.map (·.articleName)
        · rw [List.filter_cons_of_neg (by simpa using hk), ih, Counts.total, if_neg]
          · simp
          · rintro rfl
            obtain ⟨s, hs, e⟩ := List.mem_map.mp hk
            exact hm' s hs e
        · rw [List.filter_cons_of_pos (by simpa using hk), Counts.total, Counts.total, ih]
    exact this _
  refine ⟨addUncoveredLinks env files.length c (all'.map (·.articleName)), ?_, ?_, hget, ?_, c4, ?_⟩
  · unfold combinedStats
    rw [c1]
    simp [ht]
  · simpa [addUncoveredLinks] using a
  · intro name
    show name ∈ c.internalLinks.keys ↔ _
    rw [c3]
    simp [Counts.keys]
  · unfold addUncoveredLinks
    rw [hunc]
    dsimp only
    refine ⟨un, ukeys, fun name h => uget name ((ukeys name).mpr h), env.sort unc.get unc.keys, he.sort _ _, ?_, ?_⟩
    · have h1 := he.sorted unc.get unc.keys
      refine (List.Pairwise.and_mem.mp h1).imp ?_
      rintro a b ⟨ha, hb, hab⟩
      rw [uget a ((he.sort _ _).mem_iff.mp ha), uget b ((he.sort _ _).mem_iff.mp hb)] at hab
      exact hab
    · rw [foldl_set _ _ []]
      · rw [List.nil_append]
        apply List.map_congr_left
        intro name hm
        rw [uget name ((he.sort _ _).mem_iff.mp (List.mem_of_mem_take hm))]
      · simp only [Counts.keys, List.map_nil, List.nil_append]
        exact (((he.sort unc.get unc.keys).nodup_iff).mpr un).sublist (List.take_sublist _ _)

/-- **C43**, sums: the numbers of the book are the sums of the numbers of its articles, in any order in which Go visits
the entries of a map, and the number of links to any article is the sum of these numbers over the articles. -/
theorem C43_statistics_are_sums (env : StatsEnv) (he : Honest env) (outputType : Str)
    (ht : outputType = b!"stats-json" ∨ outputType = b!"stats-txt") (files : List Str) (all : List ArticleStats)
    (ha : files.map env.read = all.map some) :
    ∃ c, combinedStats env outputType files = .ok c ∧
      c.numberOfCharacters = (all.map (·.numberOfCharacters)).sum ∧
      c.numberOfWords = (all.map (·.numberOfWords)).sum ∧
      c.numberOfInternalLinks = (all.map (·.numberOfInternalLinks)).sum ∧
      c.numberOfExternalLinks = (all.map (·.numberOfExternalLinks)).sum ∧
      c.numberOfImages = (all.map (·.numberOfImages)).sum ∧
      c.numberOfMath = (all.map (·.numberOfMath)).sum ∧
      c.numberOfRefDefinitions = (all.map (·.numberOfRefDefinitions)).sum ∧
      c.numberOfRefUsages = (all.map (·.numberOfRefUsages)).sum ∧
      c.estimatedReadingTimeMinutes = (all.map (·.estimatedReadingTimeMinutes)).sum ∧
      (∀ name, c.internalLinks.get name = linksTo all name) ∧
      (∀ name, name ∈ c.internalLinks.keys ↔ ∃ s ∈ all, name ∈ s.internalLinks.keys) := by
  obtain ⟨c, h, ⟨s1, s2, s3, s4, s5, s6, s7, s8, s9⟩, l, k, -⟩ := combinedStats_ok env he outputType ht files all ha
  exact ⟨c, h, s1, s2, s3, s4, s5, s6, s7, s8, s9, l, k⟩

/-- **C43**, links out of the book: exactly the linked articles that are not in the book are listed, with the number of
links to them; the short list has ten of them, or all if there are fewer, and no article that is left out has more links
than one in the short list. -/
theorem C43_links_out_of_the_book (env : StatsEnv) (he : Honest env) (outputType : Str)
    (files : List Str) (all : List ArticleStats) (ha : files.map env.read = all.map some) (c : ArticleStats)
    (hc : combinedStats env outputType files = .ok c) :
    c.uncoveredInternalLinks.keys.Nodup ∧ (∀ name, name ∈ c.uncoveredInternalLinks.keys ↔ Uncovered all name) ∧
    (∀ name, Uncovered all name → c.uncoveredInternalLinks.get name = linksTo all name) ∧
    c.top10UncoveredInternalLinks.length = min 10 c.uncoveredInternalLinks.length ∧
    c.top10UncoveredInternalLinks.keys.Nodup ∧
    (∀ p ∈ c.top10UncoveredInternalLinks, Uncovered all p.1 ∧ p.2 = linksTo all p.1) ∧
    (∀ name, Uncovered all name → name ∉ c.top10UncoveredInternalLinks.keys →
      ∀ p ∈ c.top10UncoveredInternalLinks, linksTo all name ≤ p.2) := by
  have ht : outputType = b!"stats-json" ∨ outputType = b!"stats-txt" := by
    by_contra h
    unfold combinedStats at hc
    rcases hr : readStats env files 0 {} [] with r | _ | _ | _ <;> rw [hr] at hc <;> simp [h] at hc
  obtain ⟨c', h, -, -, -, -, u1, u2, u3, names, n1, n2, n3⟩ := combinedStats_ok env he outputType ht files all ha
  obtain rfl : c = c' := by rw [hc] at h; exact Res.ok.inj h
  have hmem : ∀ {name}, name ∈ names ↔ Uncovered all name := fun {name} => by rw [n1.mem_iff, u2]
  have hkeys : c.top10UncoveredInternalLinks.keys = names.take 10 := by
    rw [n3, Counts.keys, List.map_map]
    simp [Function.comp_def]
  refine ⟨u1, u2, u3, ?_, ?_, ?_, ?_⟩
  · rw [n3, List.length_map, List.length_take, n1.length_eq]
    simp [Counts.keys]
  · rw [hkeys]
    exact ((n1.nodup_iff).mpr u1).sublist (List.take_sublist _ _)
  · intro p hp
    rw [n3] at hp
    obtain ⟨name, hm, rfl⟩ := List.mem_map.mp hp
    exact ⟨hmem.mp (List.mem_of_mem_take hm), rfl⟩
  · intro name hu hnot p hp
    rw [n3] at hp
    obtain ⟨top, hm, rfl⟩ := List.mem_map.mp hp
    rw [hkeys] at hnot
    have hd : name ∈ names.drop 10 := by
      have := hmem.mpr hu
      rw [← List.take_append_drop 10 names, List.mem_append] at this
      exact this.resolve_left hnot
    rw [← List.take_append_drop 10 names, List.pairwise_append] at n2
    exact n2.2.2 top hm name hd

/-- **C43**, order: the numbers do not depend on the order of the articles, nor on the order in which Go visits the
entries of maps or sorts equal elements. In the short list the numbers are the same; the articles can differ if they have
equally many links, see below. -/
theorem C43_order_does_not_matter (env env' : StatsEnv) (he : Honest env) (he' : Honest env') (hr : env'.read = env.read)
    (outputType : Str) (files files' : List Str) (hf : files.Perm files') (c : ArticleStats)
    (hc : combinedStats env outputType files = .ok c) :
    ∃ c', combinedStats env' outputType files' = .ok c' ∧
      (c'.numberOfCharacters = c.numberOfCharacters ∧ c'.numberOfWords = c.numberOfWords ∧
        c'.numberOfInternalLinks = c.numberOfInternalLinks ∧ c'.numberOfExternalLinks = c.numberOfExternalLinks ∧
        c'.numberOfImages = c.numberOfImages ∧ c'.numberOfMath = c.numberOfMath ∧
        c'.numberOfRefDefinitions = c.numberOfRefDefinitions ∧ c'.numberOfRefUsages = c.numberOfRefUsages ∧
        c'.estimatedReadingTimeMinutes = c.estimatedReadingTimeMinutes) ∧
      c'.internalLinks.Perm c.internalLinks ∧
      c'.uncoveredInternalLinks.Perm c.uncoveredInternalLinks ∧
      c'.top10UncoveredInternalLinks.map Prod.snd = c.top10UncoveredInternalLinks.map Prod.snd := by
  have ht : outputType = b!"stats-json" ∨ outputType = b!"stats-txt" := by
    by_contra h
    unfold combinedStats at hc
    rcases hr : readStats env files 0 {} [] with r | _ | _ | _ <;> rw [hr] at hc <;> simp [h] at hc
  obtain ⟨all, ha⟩ : ∃ all : List ArticleStats, files.map env.read = all.map some := by
    unfold combinedStats at hc
    rcases hr : readStats env files 0 {} [] with r | _ | _ | _
    · obtain ⟨all, a, -⟩ := readStats_ok env files 0 {} [] r hr
      exact ⟨all, a⟩
    all_goals rw [hr] at hc; simp at hc
  obtain ⟨all', ha', hp⟩ : ∃ all' : List ArticleStats, files'.map env'.read = all'.map some ∧ all.Perm all' := by
    have e : all = files.filterMap env.read := by
      have : (files.map env.read).filterMap id = (all.map some).filterMap id := by rw [ha]
      simpa [List.filterMap_map] using this.symm
    refine ⟨files'.filterMap env.read, ?_, ?_⟩
    · rw [hr]
      have hs : ∀ f ∈ files', ∃ s, env.read f = some s := by
        intro f hf'
        have : env.read f ∈ files.map env.read := List.mem_map_of_mem (hf.mem_iff.mpr hf')
        rw [ha] at this
        obtain ⟨s, -, hs⟩ := List.mem_map.mp this
        exact ⟨s, hs.symm⟩
      clear hf
      induction files' with
      | nil => rfl
      | cons f rest ih =>
        obtain ⟨s, h⟩ := hs f (by simp)
        rw [List.map_cons, List.filterMap_cons_some h, ih (fun g hg => hs g (by simp [hg])), h]
        rfl
    · rw [e]; exact hf.filterMap _
  obtain ⟨d, h, ⟨s1, s2, s3, s4, s5, s6, s7, s8, s9⟩, l1, l2, l3, u1, u2, u3, names, n1, n2, n3⟩ :=
    combinedStats_ok env he outputType ht files all ha
  obtain rfl : c = d := by rw [hc] at h; exact Res.ok.inj h
  obtain ⟨c', h', ⟨t1, t2, t3, t4, t5, t6, t7, t8, t9⟩, m1, m2, m3, v1, v2, v3, names', p1, p2, p3⟩ :=
    combinedStats_ok env' he' outputType ht files' all' ha'
  have hsum : ∀ f : ArticleStats → Int, (all'.map f).sum = (all.map f).sum := fun f => ((hp.map f).sum_eq).symm
  have hl : linksTo all' = linksTo all := funext fun name => hsum _
  have hex : ∀ P : ArticleStats → Prop, (∃ s ∈ all', P s) ↔ ∃ s ∈ all, P s := fun P =>
    ⟨fun ⟨s, hs, h⟩ => ⟨s, hp.mem_iff.mpr hs, h⟩, fun ⟨s, hs, h⟩ => ⟨s, hp.mem_iff.mp hs, h⟩⟩
  have hu : ∀ name, Uncovered all' name ↔ Uncovered all name := fun name => by
    unfold Uncovered
    rw [hex]
    exact and_congr_right fun _ => ⟨fun h s hs => h s (hp.mem_iff.mp hs), fun h s hs => h s (hp.mem_iff.mpr hs)⟩
  have hup : c'.uncoveredInternalLinks.Perm c.uncoveredInternalLinks := by
    refine Counts.perm_of v1 u1 (fun name => by rw [v2, u2, hu]) fun name hm => ?_
    rw [v2] at hm
    rw [v3 name hm, u3 name ((hu name).mp hm), hl]
  refine ⟨c', h', ?_, ?_, hup, ?_⟩
  · simp only [s1, s2, s3, s4, s5, s6, s7, s8, s9, t1, t2, t3, t4, t5, t6, t7, t8, t9, hsum, and_self]
  · refine Counts.perm_of m3 l3 (fun name => by rw [m2, l2, hex]) fun name _ => by rw [m1, l1, hl]
  · rw [n3, p3, List.map_map, List.map_map, hl]
    simp only [Function.comp_def]
    rw [List.map_take, List.map_take]
    congr 1
    have hperm : names'.Perm names := (p1.trans (hup.map Prod.fst)).trans n1.symm
    rw [hl] at p2
    refine List.Perm.eq_of_pairwise (le := fun a b => b ≤ a) ?_ (List.pairwise_map.mpr p2) (List.pairwise_map.mpr n2) (hperm.map _)
    intro a b _ _ h1 h2
    omega

/-- **C43**, errors: if a file of an article cannot be read, no statistics are written. -/
theorem C43_unreadable_article_is_an_error (env : StatsEnv) (outputType : Str) (files : List Str)
    (h : ∃ f ∈ files, env.read f = none) : combinedStats env outputType files = .err := by
  have : ∀ (files : List Str) (i : Nat) (c : ArticleStats) (articles : List Str), (∃ f ∈ files, env.read f = none) →
      readStats env files i c articles = .err := by
    intro files
    induction files with
    | nil => simp
    | cons f rest ih =>
      rintro i c articles ⟨g, hg, hn⟩
      rw [readStats]
      rcases hf : env.read f with _ | s
      · rfl
      · dsimp only
        refine ih _ _ _ ⟨g, ?_, hn⟩
        rcases List.mem_cons.mp hg with rfl | h
        · rw [hf] at hn; simp at hn
        · exact h
  unfold combinedStats
  rw [this files 0 {} [] h]
  rfl

/-- Insertion sort, in descending order. -/
def sortDown (f : Str → Int) (l : List Str) : List Str := l.insertionSort (fun a b => f b ≤ f a)

/-- Two articles: "A" links "B", "X" (twice) and eleven other articles, "B" links "A" and "X". -/
def statsFile (name : Str) : Option ArticleStats :=
  if name = b!"A.json" then
    some { articleName := b!"A", numberOfCharacters := 10, numberOfInternalLinks := 14
           internalLinks := [(b!"B", 1), (b!"X", 2), (b!"a", 1), (b!"b", 1), (b!"c", 1), (b!"d", 1), (b!"e", 1), (b!"f", 1),
             (b!"g", 1), (b!"h", 1), (b!"i", 1), (b!"j", 1), (b!"k", 1)] }
  else if name = b!"B.json" then
    some { articleName := b!"B", numberOfCharacters := 5, numberOfInternalLinks := 2
           internalLinks := [(b!"A", 1), (b!"X", 1)] }
  else none

/-- Maps are visited in the order of insertion. -/
def forwardEnv : StatsEnv := { read := statsFile, range := fun _ m => m, sort := sortDown }

/-- The map of the third loop is visited backwards. -/
def backwardEnv : StatsEnv := { forwardEnv with range := fun i m => if i = 2 then m.reverse else m }

theorem statsFile_nodup (f : Str) (stats : ArticleStats) (h : statsFile f = some stats) : stats.internalLinks.keys.Nodup := by
  unfold statsFile at h
  split at h
  · obtain rfl := Option.some.inj h
    decide
  · split at h
    · obtain rfl := Option.some.inj h
      decide
    · simp at h

theorem sortDown_sorted (f : Str → Int) (l : List Str) : (sortDown f l).Pairwise (fun a b => f b ≤ f a) := by
  have : Std.Total (α := Str) (fun a b => f b ≤ f a) := ⟨fun a b => by simpa using le_total (f b) (f a)⟩
  have : IsTrans Str (fun a b => f b ≤ f a) := ⟨fun a b c h1 h2 => le_trans h2 h1⟩
  exact List.pairwise_insertionSort _ _

theorem forwardEnv_honest : Honest forwardEnv :=
  ⟨fun _ _ => .refl _, fun _ _ => List.perm_insertionSort _ _, sortDown_sorted, statsFile_nodup⟩

theorem backwardEnv_honest : Honest backwardEnv :=
  ⟨fun i m => by
    show (if i = 2 then m.reverse else m).Perm m
    split
    · exact List.reverse_perm m
    · exact .refl _, fun _ _ => List.perm_insertionSort _ _, sortDown_sorted, statsFile_nodup⟩

example : ∃ c, combinedStats forwardEnv b!"stats-json" [b!"A.json", b!"B.json"] = .ok c ∧ c.numberOfCharacters = 15 ∧
    c.internalLinks.get b!"X" = 3 ∧ c.uncoveredInternalLinks.length = 12 ∧ c.top10UncoveredInternalLinks.length = 10 :=
  ⟨_, rfl, by decide +kernel⟩

/-- Which of the equally frequent articles are in the short list depends on the order in which Go visits the entries of
a map, which is random: the same book can have different statistics. -/
theorem C43_short_list_depends_on_map_order :
    ∃ c c', combinedStats forwardEnv b!"stats-json" [b!"A.json", b!"B.json"] = .ok c ∧
      combinedStats backwardEnv b!"stats-json" [b!"A.json", b!"B.json"] = .ok c' ∧
      b!"a" ∈ c.top10UncoveredInternalLinks.keys ∧ b!"a" ∉ c'.top10UncoveredInternalLinks.keys :=
  ⟨_, _, rfl, rfl, by decide +kernel⟩

end Verif.Props
