import Verif.Model.StatsText
import Verif.Props.Stats

/-!
# Statistics as text (C66)
-/

namespace Verif.Props
open Verif.Go Verif.Model
open scoped List

/-- What the Go runtime guarantees: a loop over a map visits each entry once, in any order; sorting gives a descending order. -/
structure HonestText (env : StatsTextEnv) : Prop where
  articles : ∀ l, env.articles l ~ l
  links : ∀ m, env.links m ~ m
  sort : ∀ m, env.sort m ~ m
  sorted : ∀ m, (env.sort m).Pairwise fun p q => q.2 ≤ p.2

/-- The report. -/
def report (characters links : Int) (articles : List Str) (total : Nat) (top : List (Str × Int)) : List Str :=
  [b!"Statistics generated with wiki2book:",
   b!"",
   b!"General:",
   b!"  Number of characters    : " ++ decimalInt characters,
   b!"  Number of internal links: " ++ decimalInt links,
   b!"",
   b!"Article:"] ++
  articles.map (fun name => b!"  " ++ name) ++
  [b!"",
   b!"Top 20 linked articles that are not part of the book (total: " ++ decimal total ++ b!"):"] ++
  top.map (fun p => b!"  " ++ p.1 ++ b!" (" ++ decimalInt p.2 ++ b!")") ++
  [b!""]

theorem mapKeys_spec (names keys : List Str) (hk : keys.Nodup) : (mapKeys keys names).Nodup ∧ ∀ n, n ∈ mapKeys keys names ↔ n ∈ keys ∨ n ∈ names := by
  induction names generalizing keys with
  | nil => simpa [mapKeys] using hk
  | cons name rest ih =>
    rw [mapKeys]
    split
    · rename_i h
      refine ⟨(ih keys hk).1, fun n => ?_⟩
      rw [(ih keys hk).2 n, List.mem_cons]
      constructor
      · rintro (h1 | h1) <;> simp [h1]
      · rintro (h1 | rfl | h1)
        · exact Or.inl h1
        · exact Or.inl h
        · exact Or.inr h1
    · rename_i h
      have hk' : (keys ++ [name]).Nodup := by
        rw [List.nodup_append]
        refine ⟨hk, by simp, ?_⟩
        rintro a ha b hb rfl
        simp only [List.mem_singleton] at hb
        subst hb
        exact h ha
      refine ⟨(ih _ hk').1, fun n => ?_⟩
      rw [(ih _ hk').2 n]
      simp [or_assoc]

theorem foldl_text {α : Type} (f : Str → α → Str) (g : α → Str) (h : ∀ r a, f r a = r ++ (g a ++ b!"\n")) (l : List α) (r : Str) :
    l.foldl f r = r ++ (l.map g).flatMap (· ++ b!"\n") := by
  induction l generalizing r with
  | nil => simp
  | cons a l ih => rw [List.foldl_cons, ih, h]; simp

set_option maxRecDepth 4000 in
theorem txtStats_lines (env : StatsTextEnv) (articles : List Str) (c : ArticleStats) :
    txtStats env articles c ++ b!"\n" = (report c.numberOfCharacters c.numberOfInternalLinks (env.articles (mapKeys [] articles))
      c.uncoveredInternalLinks.length ((env.sort (env.links c.uncoveredInternalLinks)).take 20)).flatMap (· ++ b!"\n") := by
  have ht : ∀ l : Counts, l.take (min l.length 20) = l.take 20 := by
    intro l
    rcases Nat.le_total l.length 20 with h | h
    · rw [Nat.min_eq_left h, List.take_length, List.take_of_length_le h]
    · rw [Nat.min_eq_right h]
  unfold txtStats report
  simp only
  rw [ht, foldl_text _ (fun p => b!"  " ++ p.1 ++ b!" (" ++ decimalInt p.2 ++ b!")") (by intro r a; simp),
    foldl_text _ (fun name => b!"  " ++ name) (by intro r a; simp)]
  simp only [List.flatMap_append, List.flatMap_cons, List.flatMap_nil, List.append_assoc, List.cons_append, List.nil_append, List.append_nil]

/-- **C66**: the report names the sums over all articles, each article of the book once, the number of linked articles that are not
in the book, and the twenty of them (or all, if there are fewer) to which most links lead, in this order, each with the number of links. -/
theorem C66_report_is_right (env : StatsEnv) (he : Honest env) (text : StatsTextEnv) (ht : HonestText text) (files : List Str)
    (all : List ArticleStats) (ha : files.map env.read = all.map some) :
    ∃ (articles uncovered : List Str) (top : List (Str × Int)),
      combinedText env text files = .ok ((report (all.map (·.numberOfCharacters)).sum (all.map (·.numberOfInternalLinks)).sum
        articles uncovered.length top).flatMap (· ++ b!"\n")) ∧
      (articles.Nodup ∧ ∀ name, name ∈ articles ↔ ∃ s ∈ all, s.articleName = name) ∧
      (uncovered.Nodup ∧ ∀ name, name ∈ uncovered ↔ Uncovered all name) ∧
      top.length = min 20 uncovered.length ∧ (top.map Prod.fst).Nodup ∧
      (∀ p ∈ top, Uncovered all p.1 ∧ p.2 = linksTo all p.1) ∧
      top.Pairwise (fun p q => q.2 ≤ p.2) ∧
      (∀ name, Uncovered all name → name ∉ top.map Prod.fst → ∀ p ∈ top, linksTo all name ≤ p.2) := by
  obtain ⟨c, h, ⟨s1, -, s3, -⟩, -, -, -, u1, u2, u3, -⟩ := combinedStats_ok env he b!"stats-txt" (Or.inr rfl) files all ha
  have hread : ∃ c0, readStats env files 0 {} [] = .ok (c0, all.map (·.articleName)) ∧
      c = addUncoveredLinks env files.length c0 (all.map (·.articleName)) := by
    unfold combinedStats at h
    rcases hr : readStats env files 0 {} [] with r | _ | _ | _
    · obtain ⟨all', a0, a1, -⟩ := readStats_ok env files 0 {} [] r hr
      obtain rfl : all' = all := by
        rw [ha] at a0
        exact List.map_injective_iff.mpr (fun _ _ h => Option.some.inj h) a0.symm
      obtain ⟨c0, names⟩ := r
      rw [hr] at h
      simp only [List.nil_append] at a1
      subst a1
      refine ⟨c0, rfl, ?_⟩
      simpa using h.symm
    all_goals rw [hr] at h; simp at h
  obtain ⟨c0, hr, rfl⟩ := hread
  generalize hc : addUncoveredLinks env files.length c0 (all.map (·.articleName)) = c at *
  have hp : text.sort (text.links c.uncoveredInternalLinks) ~ c.uncoveredInternalLinks := (ht.sort _).trans (ht.links _)
  have hs := ht.sorted (text.links c.uncoveredInternalLinks)
  generalize hsrt : text.sort (text.links c.uncoveredInternalLinks) = sorted at hp hs
  have hk := mapKeys_spec (all.map (·.articleName)) [] List.nodup_nil
  have hval : ∀ p ∈ sorted, Uncovered all p.1 ∧ p.2 = linksTo all p.1 := by
    intro p hm
    have hm := (Counts.mem_iff u1 p.1 p.2).mp (hp.mem_iff.mp hm)
    have hu := (u2 p.1).mp hm.1
    exact ⟨hu, by rw [← hm.2, u3 _ hu]⟩
  refine ⟨text.articles (mapKeys [] (all.map (·.articleName))), c.uncoveredInternalLinks.keys, sorted.take 20, ?_, ?_, ⟨u1, u2⟩, ?_, ?_, ?_, ?_, ?_⟩
  · unfold combinedText
    rw [hr]
    show Res.ok (txtStats text (all.map (·.articleName)) (addUncoveredLinks env files.length c0 (all.map (·.articleName))) ++ b!"\n") = _
    rw [hc, txtStats_lines, s1, s3, hsrt]
    simp [Counts.keys]
  · refine ⟨((ht.articles _).nodup_iff).mpr hk.1, fun name => ?_⟩
    rw [(ht.articles _).mem_iff, hk.2]
    simp
  · rw [List.length_take, hp.length_eq]
    simp [Counts.keys]
  · exact (((hp.map Prod.fst).nodup_iff).mpr u1).sublist ((List.take_sublist _ _).map _)
  · exact fun p hm => hval p (List.mem_of_mem_take hm)
  · exact hs.sublist (List.take_sublist _ _)
  · intro name hu hnot p hm
    have hmem : name ∈ sorted.map Prod.fst := ((hp.map Prod.fst).mem_iff).mpr ((u2 name).mpr hu)
    obtain ⟨q, hq, rfl⟩ := List.mem_map.mp hmem
    have hd : q ∈ sorted.drop 20 := by
      rw [← List.take_append_drop 20 sorted, List.mem_append] at hq
      exact hq.resolve_left fun h => hnot (List.mem_map_of_mem h)
    rw [← List.take_append_drop 20 sorted, List.pairwise_append] at hs
    rw [← (hval q (List.mem_of_mem_drop hd)).2]
    exact hs.2.2 p hm q hd

/-- Maps are visited in the order of insertion. -/
def forwardText : StatsTextEnv where
  articles l := l
  links m := m
  sort m := m.insertionSort (fun p q => q.2 ≤ p.2)

theorem forwardText_honest : HonestText forwardText := by
  refine ⟨fun _ => .refl _, fun _ => .refl _, fun _ => List.perm_insertionSort _ _, fun m => ?_⟩
  have : Std.Total (α := Str × Int) (fun p q => q.2 ≤ p.2) := ⟨fun a b => by simpa using le_total b.2 a.2⟩
  have : IsTrans (Str × Int) (fun p q => q.2 ≤ p.2) := ⟨fun a b c h1 h2 => le_trans h2 h1⟩
  exact List.pairwise_insertionSort _ _

/-- Three articles, one of them twice. -/
def textFile (name : Str) : Option ArticleStats :=
  if name = b!"A.json" then
    some { articleName := b!"A", numberOfCharacters := 10, numberOfInternalLinks := 4, internalLinks := [(b!"B", 1), (b!"X", 1), (b!"Y", 2)] }
  else if name = b!"B.json" then
    some { articleName := b!"B", numberOfCharacters := 5, numberOfInternalLinks := 3, internalLinks := [(b!"A", 1), (b!"X", 2)] }
  else none

example : Honest { forwardEnv with read := textFile } := by
  refine ⟨fun _ _ => .refl _, fun _ _ => List.perm_insertionSort _ _, sortDown_sorted, fun f stats h => ?_⟩
  change textFile f = some stats at h
  unfold textFile at h
  split at h
  · obtain rfl := Option.some.inj h
    decide
  · split at h
    · obtain rfl := Option.some.inj h
      decide
    · simp at h

example : combinedText { forwardEnv with read := textFile } forwardText [b!"A.json", b!"B.json", b!"A.json"] =
    .ok b!"Statistics generated with wiki2book:\n\nGeneral:\n  Number of characters    : 25\n  Number of internal links: 11\n\nArticle:\n  A\n  B\n\nTop 20 linked articles that are not part of the book (total: 2):\n  X (4)\n  Y (4)\n\n" := by
  decide +kernel

end Verif.Props
