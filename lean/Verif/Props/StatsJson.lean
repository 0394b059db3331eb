import Verif.Model.StatsJson
import Verif.Lemmas.StatsJson
import Verif.Props.Stats

/-!
# Statistics as JSON (C72)
-/

namespace Verif.Props
open Verif.Go Verif.Model Verif.Spec Verif.Lemmas
open scoped List

/-- The number fits into 64 bits. -/
def Fits64 (n : Int) : Prop := -2 ^ 63 ≤ n ∧ n < 2 ^ 63

/-! ## Maps -/

theorem insertKey_perm (p : Str × Int) (m : Counts) : insertKey p m ~ p :: m := by
  induction m with
  | nil => exact .refl _
  | cons q m ih =>
    rw [insertKey]
    split
    · exact .refl _
    · exact (ih.cons q).trans (.swap p q m)

theorem sortKeys_perm (m : Counts) : sortKeys m ~ m := by
  induction m with
  | nil => exact .refl _
  | cons p m ih => exact (insertKey_perm p _).trans (ih.cons p)

theorem strLe_total (a b : Str) : strLe a b = true ∨ strLe b a = true := by
  induction a generalizing b with
  | nil => left; rfl
  | cons x a ih =>
    cases b with
    | nil => right; rfl
    | cons y b =>
      simp only [strLe]
      by_cases h1 : x < y
      · left; rw [if_pos h1]
      · by_cases h2 : y < x
        · right; rw [if_pos h2]
        · rw [if_neg h1, if_neg h2, if_neg h2, if_neg h1]; exact ih b

theorem strLe_trans {a b c : Str} (h1 : strLe a b = true) (h2 : strLe b c = true) : strLe a c = true := by
  induction a generalizing b c with
  | nil => rfl
  | cons x a ih =>
    cases b with
    | nil => simp [strLe] at h1
    | cons y b =>
      cases c with
      | nil => simp [strLe] at h2
      | cons z c =>
        simp only [strLe, UInt8.lt_iff_toNat_lt] at *
        by_cases a1 : x.toNat < y.toNat
        · by_cases a2 : y.toNat < z.toNat
          · rw [if_pos (by omega)]
          · rw [if_neg a2] at h2
            by_cases a3 : z.toNat < y.toNat
            · rw [if_pos a3] at h2; exact absurd h2 (by decide)
            · rw [if_pos (by omega)]
        · rw [if_neg a1] at h1
          by_cases a3 : y.toNat < x.toNat
          · rw [if_pos a3] at h1; exact absurd h1 (by decide)
          · rw [if_neg a3] at h1
            by_cases a2 : y.toNat < z.toNat
            · rw [if_pos (by omega)]
            · rw [if_neg a2] at h2
              by_cases a4 : z.toNat < y.toNat
              · rw [if_pos a4] at h2; exact absurd h2 (by decide)
              · rw [if_neg a4] at h2
                rw [if_neg (by omega), if_neg (by omega)]
                exact ih h1 h2

theorem strLe_antisymm {a b : Str} (h1 : strLe a b = true) (h2 : strLe b a = true) : a = b := by
  induction a generalizing b with
  | nil => cases b with
    | nil => rfl
    | cons => simp [strLe] at h2
  | cons x a ih =>
    cases b with
    | nil => simp [strLe] at h1
    | cons y b =>
      simp only [strLe, UInt8.lt_iff_toNat_lt] at *
      by_cases a1 : x.toNat < y.toNat
      · rw [if_neg (by omega), if_pos a1] at h2; exact absurd h2 (by decide)
      · by_cases a2 : y.toNat < x.toNat
        · rw [if_neg a1, if_pos a2] at h1; exact absurd h1 (by decide)
        · rw [if_neg a1, if_neg a2] at h1
          rw [if_neg a2, if_neg a1] at h2
          rw [ih h1 h2, UInt8.toNat_inj.mp (show x.toNat = y.toNat by omega)]

theorem insertKey_sorted (p : Str × Int) (m : Counts) (h : m.Pairwise fun a b => strLe a.1 b.1 = true) :
    (insertKey p m).Pairwise fun a b => strLe a.1 b.1 = true := by
  induction m with
  | nil => simp [insertKey]
  | cons q m ih =>
    rw [List.pairwise_cons] at h
    rw [insertKey]
    split
    · rename_i h1
      rw [List.pairwise_cons, List.pairwise_cons]
      refine ⟨fun x hx => ?_, h⟩
      rcases List.mem_cons.mp hx with rfl | hx
      · exact h1
      · exact strLe_trans h1 (h.1 x hx)
    · rename_i h1
      rw [List.pairwise_cons]
      refine ⟨fun x hx => ?_, ih h.2⟩
      rcases List.mem_cons.mp ((insertKey_perm p m).mem_iff.mp hx) with rfl | hx
      · exact (strLe_total _ _).resolve_left h1
      · exact h.1 x hx

theorem sortKeys_sorted (m : Counts) : (sortKeys m).Pairwise fun a b => strLe a.1 b.1 = true := by
  induction m with
  | nil => exact .nil
  | cons p m ih => exact insertKey_sorted p _ ih

theorem counts_eq_of_key {m : Counts} (hn : m.keys.Nodup) {p q : Str × Int} (hp : p ∈ m) (hq : q ∈ m) (h : p.1 = q.1) : p = q := by
  exact List.inj_on_of_nodup_map hn hp hq h

theorem sortKeys_congr {m m' : Counts} (hn : m.keys.Nodup) (h : m ~ m') : sortKeys m = sortKeys m' := by
  have hp := ((sortKeys_perm m).trans h).trans (sortKeys_perm m').symm
  refine hp.eq_of_pairwise ?_ (sortKeys_sorted m) (sortKeys_sorted m')
  intro a b ha hb h1 h2
  exact counts_eq_of_key hn ((sortKeys_perm m).mem_iff.mp ha) (h.mem_iff.mpr ((sortKeys_perm m').mem_iff.mp hb)) (strLe_antisymm h1 h2)

theorem members_countsFields (m : Counts) : members (countsFields m) = m.map fun p => (p.1, .num p.2) := by
  induction m with
  | nil => rfl
  | cons p m ih => obtain ⟨k, n⟩ := p; rw [countsFields, members, ih]; rfl

theorem validFields_counts {m : Counts} (h : ∀ key ∈ m.keys, ValidText key) : ValidFields (countsFields m) := by
  induction m with
  | nil => trivial
  | cons p m ih =>
    obtain ⟨k, n⟩ := p
    exact ⟨h k (by simp [Counts.keys]), trivial, ih fun key hk => h key (by
      simp only [Counts.keys, List.map_cons, List.mem_cons]; exact .inr hk)⟩

theorem validJson_counts {m : Counts} (h : ∀ key ∈ m.keys, ValidText key) : ValidJson (countsJson m) := by
  refine validFields_counts fun key hk => h key ?_
  exact ((sortKeys_perm m).map Prod.fst).mem_iff.mp hk

theorem Counts.keys_set (m : Counts) (key : Str) (n : Int) : (m.set key n).keys = (m.add key n).keys := by
  induction m with
  | nil => rfl
  | cons p m ih =>
    obtain ⟨k, v⟩ := p
    rw [Counts.set, Counts.add]
    split
    · rfl
    · simp only [Counts.keys, List.map_cons, List.cons.injEq, true_and] at ih ⊢
      exact ih

theorem storeCountMembers_nodup (f : JsonMembers) (m : Counts) (hm : m.keys.Nodup) : (storeCountMembers f m).1.keys.Nodup := by
  fun_induction storeCountMembers f m with
  | case1 m => exact hm
  | case2 m key value rest ih => exact ih (by rw [Counts.keys_set]; exact Counts.nodup_add hm _ _)

theorem storeCountMembers_counts (m m0 : Counts) (h : (m0.keys ++ m.keys).Nodup) (hb : ∀ p ∈ m, Fits64 p.2) :
    storeCountMembers (textMembers (countsFields m)) m0 = (m0 ++ m, false) := by
  induction m generalizing m0 with
  | nil => rw [countsFields, textMembers, storeCountMembers, List.append_nil]
  | cons p m ih =>
    obtain ⟨k, n⟩ := p
    have hk : k ∉ m0.keys := by
      intro hk
      have := (List.nodup_append.mp h).2.2 k hk k (by simp [Counts.keys])
      exact this rfl
    rw [countsFields, textMembers, storeCountMembers, storeInt_decimalInt (hb (k, n) (by simp)), Counts.set_new hk, ih]
    · simp
    · simpa [Counts.keys] using h
    · exact fun p hp => hb p (by simp [hp])

/-! ## Files -/

/-- The names are texts, and each key of a map exists once. -/
structure Sound (s : ArticleStats) : Prop where
  name : ValidText s.articleName
  links : s.internalLinks.keys.Nodup ∧ ∀ key ∈ s.internalLinks.keys, ValidText key
  uncovered : s.uncoveredInternalLinks.keys.Nodup ∧ ∀ key ∈ s.uncoveredInternalLinks.keys, ValidText key
  top : s.top10UncoveredInternalLinks.keys.Nodup ∧ ∀ key ∈ s.top10UncoveredInternalLinks.keys, ValidText key

/-- The numbers fit into 64 bits, like all numbers that the program counts. -/
structure SmallNumbers (s : ArticleStats) : Prop where
  characters : Fits64 s.numberOfCharacters
  words : Fits64 s.numberOfWords
  internal : Fits64 s.numberOfInternalLinks
  external : Fits64 s.numberOfExternalLinks
  images : Fits64 s.numberOfImages
  math : Fits64 s.numberOfMath
  definitions : Fits64 s.numberOfRefDefinitions
  usages : Fits64 s.numberOfRefUsages
  minutes : Fits64 s.estimatedReadingTimeMinutes
  links : ∀ p ∈ s.internalLinks, Fits64 p.2
  uncovered : ∀ p ∈ s.uncoveredInternalLinks, Fits64 p.2

/-- The members of the object in a file with statistics. -/
def statsMembers (s : ArticleStats) (links uncovered top : Json) : List (Str × Json) :=
  [(b!"article-name", .str s.articleName),
   (b!"number-of-characters", .num s.numberOfCharacters),
   (b!"number-of-words", .num s.numberOfWords),
   (b!"number-of-internal-links", .num s.numberOfInternalLinks),
   (b!"number-of-external-links", .num s.numberOfExternalLinks),
   (b!"number-of-images", .num s.numberOfImages),
   (b!"number-of-math", .num s.numberOfMath),
   (b!"number-of-ref-definitions", .num s.numberOfRefDefinitions),
   (b!"number-of-ref-usages", .num s.numberOfRefUsages),
   (b!"internal-links", links),
   (b!"uncovered-internal-links", uncovered),
   (b!"top-10-uncovered-internal-links", top),
   (b!"estimated-reading-time-minutes", .num s.estimatedReadingTimeMinutes)]

/-- The value is an object with the entries of the map as members. -/
def IsMap (v : Json) (m : Counts) : Prop := ∃ f, v = .obj f ∧ members f ~ m.map fun p => (p.1, .num p.2)

theorem isMap_counts (m : Counts) : IsMap (countsJson m) m := by
  refine ⟨_, rfl, ?_⟩
  rw [members_countsFields]
  exact (sortKeys_perm m).map _

theorem validText_ascii {s : Str} (h : ∀ c ∈ s, c < 0x80) : ValidText s := by
  refine ⟨s.map UInt8.toNat, ?_, ?_⟩
  · intro n hn
    obtain ⟨c, hc, rfl⟩ := List.mem_map.mp hn
    have : c.toNat < 128 := UInt8.lt_iff_toNat_lt.mp (h c hc)
    left; omega
  · induction s with
    | nil => rfl
    | cons c s ih =>
      have : c.toNat < 128 := UInt8.lt_iff_toNat_lt.mp (h c (by simp))
      rw [List.map_cons, List.flatMap_cons, ← ih fun d hd => h d (by simp [hd]), utf8, if_pos (by omega)]
      simp

theorem validJson_stats {s : ArticleStats} (h : Sound s) {top : Json} (ht : ValidJson top) : ValidJson (statsJson s top) := by
  simp only [statsJson, ValidJson, ValidFields, and_true, true_and]
  refine ⟨?_, h.name, ?_, ?_, ?_, ?_, ?_, ?_, ?_, ?_, ?_, validJson_counts h.links.2, ?_, validJson_counts h.uncovered.2, ?_, ht, ?_⟩
  all_goals exact validText_ascii (by decide)

/-- The file for an article is a JSON text with the numbers of the article. -/
theorem C72_file_of_an_article (s : ArticleStats) (h : Sound s) :
    ∃ f links uncovered, jsonText (articleStatsFile s) = some (.obj f) ∧ members f = statsMembers s links uncovered .null ∧
      IsMap links s.internalLinks ∧ IsMap uncovered s.uncoveredInternalLinks := by
  have := jsonText_encode (validJson_stats h (top := .null) trivial) [] (.inl rfl)
  rw [List.append_nil] at this
  exact ⟨_, _, _, this, rfl, isMap_counts _, isMap_counts _⟩

/-- The output file is a JSON text with the numbers of the book. -/
theorem C72_file_of_the_book (c : ArticleStats) (h : Sound c) :
    ∃ f links uncovered top, jsonText (bookStatsFile c) = some (.obj f) ∧ members f = statsMembers c links uncovered top ∧
      IsMap links c.internalLinks ∧ IsMap uncovered c.uncoveredInternalLinks ∧ IsMap top c.top10UncoveredInternalLinks := by
  have := jsonText_encode (validJson_stats h (validJson_counts h.top.2)) b!"\n" (.inr rfl)
  exact ⟨_, _, _, _, this, rfl, isMap_counts _, isMap_counts _, isMap_counts _⟩

/-- The same statistics always give the same file, whatever the order of the maps is. -/
theorem C72_same_statistics_same_file (s s' : ArticleStats) (h : Sound s)
    (hs : s' = { s with internalLinks := s'.internalLinks, uncoveredInternalLinks := s'.uncoveredInternalLinks,
                        top10UncoveredInternalLinks := s'.top10UncoveredInternalLinks })
    (h1 : s'.internalLinks ~ s.internalLinks) (h2 : s'.uncoveredInternalLinks ~ s.uncoveredInternalLinks)
    (h3 : s'.top10UncoveredInternalLinks ~ s.top10UncoveredInternalLinks) :
    articleStatsFile s' = articleStatsFile s ∧ bookStatsFile s' = bookStatsFile s := by
  rw [hs]
  simp only [articleStatsFile, bookStatsFile, statsJson, countsJson]
  rw [sortKeys_congr h.links.1 h1.symm, sortKeys_congr h.uncovered.1 h2.symm, sortKeys_congr h.top.1 h3.symm]
  exact ⟨rfl, rfl⟩

/-! ## Reading the files of the articles -/

/-- What is read from the file for an article. -/
def readBack (s : ArticleStats) : ArticleStats :=
  { s with internalLinks := sortKeys s.internalLinks, uncoveredInternalLinks := sortKeys s.uncoveredInternalLinks,
           top10UncoveredInternalLinks := [] }

theorem sortKeys_nodup {m : Counts} (h : m.keys.Nodup) : (sortKeys m).keys.Nodup :=
  ((sortKeys_perm m).map Prod.fst).nodup_iff.mpr h

theorem storeCounts_counts {m : Counts} (h : m.keys.Nodup) (hb : ∀ p ∈ m, Fits64 p.2) :
    storeCounts [] (textVal (countsJson m)) = (sortKeys m, false) := by
  rw [countsJson, textVal, storeCounts, storeCountMembers_counts _ _ (by simpa [Counts.keys] using sortKeys_nodup h)
    (fun p hp => hb p ((sortKeys_perm m).mem_iff.mp hp)), List.nil_append]

theorem nesting_stats (s : ArticleStats) : nesting (textVal (statsJson s .null)) ≤ 10000 := by
  simp only [statsJson, countsJson, textVal, textMembers, nesting, nestingMembers, nesting_counts]
  decide

theorem text_articleStatsFile (s : ArticleStats) (h : Sound s) : JsonText (textVal (statsJson s .null)) (articleStatsFile s) :=
  have hn : Blank [] := by intro c hc; cases hc
  ⟨[], articleStatsFile s, [], by rw [List.append_nil, List.nil_append], hn, valueText_encode _ [] hn (validJson_stats h trivial), hn⟩

theorem store_articleName (v : JsonVal) (x : ArticleStats) {r : Str} (h : storeString x.articleName v = (r, false)) :
    storeStatsName b!"article-name" v x = ({ x with articleName := r }, false) := by
  have : storeStatsName b!"article-name" v x = ({ x with articleName := (storeString x.articleName v).1 }, (storeString x.articleName v).2) := by
    rw [storeStatsName]
    rw [if_pos rfl]
  rw [this, h]

theorem store_numberOfCharacters (v : JsonVal) (x : ArticleStats) {r : Int} (h : storeInt x.numberOfCharacters v = (r, false)) :
    storeStatsName b!"number-of-characters" v x = ({ x with numberOfCharacters := r }, false) := by
  have : storeStatsName b!"number-of-characters" v x = ({ x with numberOfCharacters := (storeInt x.numberOfCharacters v).1 }, (storeInt x.numberOfCharacters v).2) := by
    rw [storeStatsName]
    rw [if_neg (by decide)]
    rw [if_pos rfl]
  rw [this, h]

theorem store_numberOfWords (v : JsonVal) (x : ArticleStats) {r : Int} (h : storeInt x.numberOfWords v = (r, false)) :
    storeStatsName b!"number-of-words" v x = ({ x with numberOfWords := r }, false) := by
  have : storeStatsName b!"number-of-words" v x = ({ x with numberOfWords := (storeInt x.numberOfWords v).1 }, (storeInt x.numberOfWords v).2) := by
    rw [storeStatsName]
    rw [if_neg (by decide)]
    rw [if_neg (by decide)]
    rw [if_pos rfl]
  rw [this, h]

theorem store_numberOfInternalLinks (v : JsonVal) (x : ArticleStats) {r : Int} (h : storeInt x.numberOfInternalLinks v = (r, false)) :
    storeStatsName b!"number-of-internal-links" v x = ({ x with numberOfInternalLinks := r }, false) := by
  have : storeStatsName b!"number-of-internal-links" v x = ({ x with numberOfInternalLinks := (storeInt x.numberOfInternalLinks v).1 }, (storeInt x.numberOfInternalLinks v).2) := by
    rw [storeStatsName]
    rw [if_neg (by decide)]
    rw [if_neg (by decide)]
    rw [if_neg (by decide)]
    rw [if_pos rfl]
  rw [this, h]

theorem store_numberOfExternalLinks (v : JsonVal) (x : ArticleStats) {r : Int} (h : storeInt x.numberOfExternalLinks v = (r, false)) :
    storeStatsName b!"number-of-external-links" v x = ({ x with numberOfExternalLinks := r }, false) := by
  have : storeStatsName b!"number-of-external-links" v x = ({ x with numberOfExternalLinks := (storeInt x.numberOfExternalLinks v).1 }, (storeInt x.numberOfExternalLinks v).2) := by
    rw [storeStatsName]
    rw [if_neg (by decide)]
    rw [if_neg (by decide)]
    rw [if_neg (by decide)]
    rw [if_neg (by decide)]
    rw [if_pos rfl]
  rw [this, h]

theorem store_numberOfImages (v : JsonVal) (x : ArticleStats) {r : Int} (h : storeInt x.numberOfImages v = (r, false)) :
    storeStatsName b!"number-of-images" v x = ({ x with numberOfImages := r }, false) := by
  have : storeStatsName b!"number-of-images" v x = ({ x with numberOfImages := (storeInt x.numberOfImages v).1 }, (storeInt x.numberOfImages v).2) := by
    rw [storeStatsName]
    rw [if_neg (by decide)]
    rw [if_neg (by decide)]
    rw [if_neg (by decide)]
    rw [if_neg (by decide)]
    rw [if_neg (by decide)]
    rw [if_pos rfl]
  rw [this, h]

theorem store_numberOfMath (v : JsonVal) (x : ArticleStats) {r : Int} (h : storeInt x.numberOfMath v = (r, false)) :
    storeStatsName b!"number-of-math" v x = ({ x with numberOfMath := r }, false) := by
  have : storeStatsName b!"number-of-math" v x = ({ x with numberOfMath := (storeInt x.numberOfMath v).1 }, (storeInt x.numberOfMath v).2) := by
    rw [storeStatsName]
    rw [if_neg (by decide)]
    rw [if_neg (by decide)]
    rw [if_neg (by decide)]
    rw [if_neg (by decide)]
    rw [if_neg (by decide)]
    rw [if_neg (by decide)]
    rw [if_pos rfl]
  rw [this, h]

theorem store_numberOfRefDefinitions (v : JsonVal) (x : ArticleStats) {r : Int} (h : storeInt x.numberOfRefDefinitions v = (r, false)) :
    storeStatsName b!"number-of-ref-definitions" v x = ({ x with numberOfRefDefinitions := r }, false) := by
  have : storeStatsName b!"number-of-ref-definitions" v x = ({ x with numberOfRefDefinitions := (storeInt x.numberOfRefDefinitions v).1 }, (storeInt x.numberOfRefDefinitions v).2) := by
    rw [storeStatsName]
    rw [if_neg (by decide)]
    rw [if_neg (by decide)]
    rw [if_neg (by decide)]
    rw [if_neg (by decide)]
    rw [if_neg (by decide)]
    rw [if_neg (by decide)]
    rw [if_neg (by decide)]
    rw [if_pos rfl]
  rw [this, h]

theorem store_numberOfRefUsages (v : JsonVal) (x : ArticleStats) {r : Int} (h : storeInt x.numberOfRefUsages v = (r, false)) :
    storeStatsName b!"number-of-ref-usages" v x = ({ x with numberOfRefUsages := r }, false) := by
  have : storeStatsName b!"number-of-ref-usages" v x = ({ x with numberOfRefUsages := (storeInt x.numberOfRefUsages v).1 }, (storeInt x.numberOfRefUsages v).2) := by
    rw [storeStatsName]
    rw [if_neg (by decide)]
    rw [if_neg (by decide)]
    rw [if_neg (by decide)]
    rw [if_neg (by decide)]
    rw [if_neg (by decide)]
    rw [if_neg (by decide)]
    rw [if_neg (by decide)]
    rw [if_neg (by decide)]
    rw [if_pos rfl]
  rw [this, h]

theorem store_internalLinks (v : JsonVal) (x : ArticleStats) {r : Counts} (h : storeCounts x.internalLinks v = (r, false)) :
    storeStatsName b!"internal-links" v x = ({ x with internalLinks := r }, false) := by
  have : storeStatsName b!"internal-links" v x = ({ x with internalLinks := (storeCounts x.internalLinks v).1 }, (storeCounts x.internalLinks v).2) := by
    rw [storeStatsName]
    rw [if_neg (by decide)]
    rw [if_neg (by decide)]
    rw [if_neg (by decide)]
    rw [if_neg (by decide)]
    rw [if_neg (by decide)]
    rw [if_neg (by decide)]
    rw [if_neg (by decide)]
    rw [if_neg (by decide)]
    rw [if_neg (by decide)]
    rw [if_pos rfl]
  rw [this, h]

theorem store_uncoveredInternalLinks (v : JsonVal) (x : ArticleStats) {r : Counts} (h : storeCounts x.uncoveredInternalLinks v = (r, false)) :
    storeStatsName b!"uncovered-internal-links" v x = ({ x with uncoveredInternalLinks := r }, false) := by
  have : storeStatsName b!"uncovered-internal-links" v x = ({ x with uncoveredInternalLinks := (storeCounts x.uncoveredInternalLinks v).1 }, (storeCounts x.uncoveredInternalLinks v).2) := by
    rw [storeStatsName]
    rw [if_neg (by decide)]
    rw [if_neg (by decide)]
    rw [if_neg (by decide)]
    rw [if_neg (by decide)]
    rw [if_neg (by decide)]
    rw [if_neg (by decide)]
    rw [if_neg (by decide)]
    rw [if_neg (by decide)]
    rw [if_neg (by decide)]
    rw [if_neg (by decide)]
    rw [if_pos rfl]
  rw [this, h]

theorem store_top10UncoveredInternalLinks (v : JsonVal) (x : ArticleStats) {r : Counts} (h : storeCounts x.top10UncoveredInternalLinks v = (r, false)) :
    storeStatsName b!"top-10-uncovered-internal-links" v x = ({ x with top10UncoveredInternalLinks := r }, false) := by
  have : storeStatsName b!"top-10-uncovered-internal-links" v x = ({ x with top10UncoveredInternalLinks := (storeCounts x.top10UncoveredInternalLinks v).1 }, (storeCounts x.top10UncoveredInternalLinks v).2) := by
    rw [storeStatsName]
    rw [if_neg (by decide)]
    rw [if_neg (by decide)]
    rw [if_neg (by decide)]
    rw [if_neg (by decide)]
    rw [if_neg (by decide)]
    rw [if_neg (by decide)]
    rw [if_neg (by decide)]
    rw [if_neg (by decide)]
    rw [if_neg (by decide)]
    rw [if_neg (by decide)]
    rw [if_neg (by decide)]
    rw [if_pos rfl]
  rw [this, h]

theorem store_estimatedReadingTimeMinutes (v : JsonVal) (x : ArticleStats) {r : Int} (h : storeInt x.estimatedReadingTimeMinutes v = (r, false)) :
    storeStatsName b!"estimated-reading-time-minutes" v x = ({ x with estimatedReadingTimeMinutes := r }, false) := by
  have : storeStatsName b!"estimated-reading-time-minutes" v x = ({ x with estimatedReadingTimeMinutes := (storeInt x.estimatedReadingTimeMinutes v).1 }, (storeInt x.estimatedReadingTimeMinutes v).2) := by
    rw [storeStatsName]
    rw [if_neg (by decide)]
    rw [if_neg (by decide)]
    rw [if_neg (by decide)]
    rw [if_neg (by decide)]
    rw [if_neg (by decide)]
    rw [if_neg (by decide)]
    rw [if_neg (by decide)]
    rw [if_neg (by decide)]
    rw [if_neg (by decide)]
    rw [if_neg (by decide)]
    rw [if_neg (by decide)]
    rw [if_neg (by decide)]
  rw [this, h]

theorem unmarshal_articleStatsFile (s : ArticleStats) (h : Sound s) (hb : SmallNumbers s) :
    unmarshalStats (articleStatsFile s) = some (readBack s) := by
  have key : storeStruct statsNames storeStatsName (textVal (statsJson s .null)) {} = (readBack s, false) := by
    rw [statsJson, textVal, storeStruct]
    simp only [textMembers]
    refine (storeMembers_cons (by decide) (store_articleName _ _ rfl) _).trans ?_
    refine (storeMembers_cons (by decide) (store_numberOfCharacters _ _ (storeInt_decimalInt hb.characters _)) _).trans ?_
    refine (storeMembers_cons (by decide) (store_numberOfWords _ _ (storeInt_decimalInt hb.words _)) _).trans ?_
    refine (storeMembers_cons (by decide) (store_numberOfInternalLinks _ _ (storeInt_decimalInt hb.internal _)) _).trans ?_
    refine (storeMembers_cons (by decide) (store_numberOfExternalLinks _ _ (storeInt_decimalInt hb.external _)) _).trans ?_
    refine (storeMembers_cons (by decide) (store_numberOfImages _ _ (storeInt_decimalInt hb.images _)) _).trans ?_
    refine (storeMembers_cons (by decide) (store_numberOfMath _ _ (storeInt_decimalInt hb.math _)) _).trans ?_
    refine (storeMembers_cons (by decide) (store_numberOfRefDefinitions _ _ (storeInt_decimalInt hb.definitions _)) _).trans ?_
    refine (storeMembers_cons (by decide) (store_numberOfRefUsages _ _ (storeInt_decimalInt hb.usages _)) _).trans ?_
    refine (storeMembers_cons (by decide) (store_internalLinks _ _ (storeCounts_counts h.links.1 hb.links)) _).trans ?_
    refine (storeMembers_cons (by decide) (store_uncoveredInternalLinks _ _ (storeCounts_counts h.uncovered.1 hb.uncovered)) _).trans ?_
    refine (storeMembers_cons (by decide) (store_top10UncoveredInternalLinks _ _ rfl) _).trans ?_
    refine (storeMembers_cons (by decide) (store_estimatedReadingTimeMinutes _ _ (storeInt_decimalInt hb.minutes _)) _).trans ?_
    rfl
  rw [unmarshalStats, parseJson_text (text_articleStatsFile s h) (nesting_stats s)]
  simp only [key, Bool.false_eq_true, if_false]

/-- What is read from the file for an article is what was written. -/
theorem C72_statistics_are_read_back (s : ArticleStats) (h : Sound s) (hb : SmallNumbers s) :
    ∃ s', unmarshalStats (articleStatsFile s) = some s' ∧
      s' = { s with internalLinks := s'.internalLinks, uncoveredInternalLinks := s'.uncoveredInternalLinks,
                    top10UncoveredInternalLinks := [] } ∧
      s'.internalLinks ~ s.internalLinks ∧ s'.uncoveredInternalLinks ~ s.uncoveredInternalLinks :=
  ⟨_, unmarshal_articleStatsFile s h hb, rfl, sortKeys_perm _, sortKeys_perm _⟩

theorem storeCounts_nodup {m : Counts} (h : m.keys.Nodup) (v : JsonVal) : (storeCounts m v).1.keys.Nodup := by
  unfold storeCounts
  split
  · exact storeCountMembers_nodup _ _ h
  · exact .nil
  · exact h

theorem storeStatsName_nodup (name : Str) (v : JsonVal) (s : ArticleStats) (h : s.internalLinks.keys.Nodup) :
    (storeStatsName name v s).1.internalLinks.keys.Nodup := by
  have ite : ∀ {c : Prop} [Decidable c] {a b : ArticleStats × Bool}, a.1.internalLinks.keys.Nodup → b.1.internalLinks.keys.Nodup →
      (if c then a else b).1.internalLinks.keys.Nodup := by
    intro c _ a b ha hb
    split
    · exact ha
    · exact hb
  unfold storeStatsName
  refine ite h ?_
  refine ite h ?_
  refine ite h ?_
  refine ite h ?_
  refine ite h ?_
  refine ite h ?_
  refine ite h ?_
  refine ite h ?_
  refine ite h ?_
  refine ite (storeCounts_nodup h v) ?_
  refine ite h ?_
  exact ite h h

theorem storeMembers_invariant {α : Type} {names : List Str} {store : Str → JsonVal → α → α × Bool} (P : α → Prop)
    (hs : ∀ name v x, P x → P (store name v x).1) (f : JsonMembers) (x : α) (h : P x) : P (storeMembers names store f x).1 := by
  fun_induction storeMembers names store f x with
  | case1 x => exact h
  | case2 x key value rest hn ih => exact ih h
  | case3 x key value rest name hn ih => exact ih (hs _ _ _ h)

/-- A decoded map has each key once. -/
theorem unmarshal_nodup (content : Str) (s : ArticleStats) (h : unmarshalStats content = some s) : s.internalLinks.keys.Nodup := by
  unfold unmarshalStats at h
  split at h
  · cases h
  · split at h
    · cases h
    · injection h with h
      subst h
      unfold storeStruct
      split
      · exact storeMembers_invariant (fun s : ArticleStats => s.internalLinks.keys.Nodup) storeStatsName_nodup _ _ .nil
      · exact .nil
      · exact .nil

theorem readStats_err (env : StatsEnv) {file : Str} {files : List Str} (hm : file ∈ files) (h : env.read file = none)
    (i : Nat) (c : ArticleStats) (articles : List Str) : readStats env files i c articles = .err := by
  induction files generalizing i c articles with
  | nil => cases hm
  | cons f files ih =>
    rw [readStats]
    rcases List.mem_cons.mp hm with rfl | hm
    · rw [h]
    · split
      · rfl
      · exact ih hm _ _ _

/-- A file with the statistics of an article that is cut off cannot be read, and the program then ends with an error instead of a
book with wrong sums. -/
theorem C72_cut_off_files_are_errors (s : ArticleStats) (h : Sound s) (front back : Str) (hf : articleStatsFile s = front ++ back)
    (hb : back ≠ []) (content : Str → Option Str) (env : StatsEnv)
    (hread : ∀ file, env.read file = (content file).bind unmarshalStats) (outputType file : Str) (files : List Str)
    (hm : file ∈ files) (hc : content file = some front) :
    unmarshalStats front = none ∧ combinedStats env outputType files = .err := by
  have hn : unmarshalStats front = none := by
    rw [unmarshalStats]
    have ht := text_articleStatsFile s h
    rw [hf] at ht
    rw [statsJson, textVal] at ht
    have hn := nesting_stats s
    rw [statsJson, textVal] at hn
    rw [parseJson_cut ht hn]
    intro hbl
    obtain ⟨t, c, rfl⟩ := List.eq_nil_or_concat back |>.resolve_left hb
    have hl : (articleStatsFile s).getLast? = some 0x7D := by
      rw [articleStatsFile, statsJson, encodeJson, List.getLast?_append]
      rfl
    rw [hf, List.concat_eq_append, ← List.append_assoc, List.getLast?_concat] at hl
    injection hl with hl
    subst hl
    exact absurd (hbl 0x7D (by simp)) (by decide)
  refine ⟨hn, ?_⟩
  have : readStats env files 0 {} [] = .err := readStats_err env hm (by rw [hread, hc]; exact hn) _ _ _
  rw [combinedStats, this]
  rfl

theorem readStats_name (env : StatsEnv) (files : List Str) (i : Nat) (c : ArticleStats) (articles : List Str) (r : ArticleStats × List Str)
    (h : readStats env files i c articles = .ok r) : r.1.articleName = c.articleName := by
  induction files generalizing i c articles with
  | nil => cases h; rfl
  | cons f files ih =>
    rw [readStats] at h
    split at h
    · cases h
    · rw [ih _ _ _ h]; rfl

theorem combinedStats_name (env : StatsEnv) (outputType : Str) (files : List Str) (c : ArticleStats)
    (h : combinedStats env outputType files = .ok c) : c.articleName = [] := by
  unfold combinedStats at h
  cases hr : readStats env files 0 {} [] with
  | ok r =>
    have := readStats_name _ _ _ _ _ _ hr
    rw [hr] at h
    simp only [bind, Res.bind] at h
    split at h
    · cases h; exact this
    · cases h
  | err => rw [hr] at h; cases h
  | panic => rw [hr] at h; cases h
  | fatal => rw [hr] at h; cases h

theorem linksTo_readBack {all : List ArticleStats} (h : ∀ s ∈ all, Sound s) (name : Str) : linksTo (all.map readBack) name = linksTo all name := by
  unfold linksTo
  rw [List.map_map]
  congr 1
  refine List.map_congr_left fun s hs => ?_
  exact Counts.get_perm (sortKeys_perm _) (sortKeys_nodup (h s hs).links.1) name

theorem keys_readBack (s : ArticleStats) (name : Str) : name ∈ (readBack s).internalLinks.keys ↔ name ∈ s.internalLinks.keys :=
  ((sortKeys_perm s.internalLinks).map Prod.fst).mem_iff

theorem uncovered_readBack (all : List ArticleStats) (name : Str) : Uncovered (all.map readBack) name ↔ Uncovered all name := by
  unfold Uncovered
  simp only [List.mem_map, exists_exists_and_eq_and, keys_readBack, forall_exists_index, and_imp, forall_apply_eq_imp_iff₂]
  exact Iff.rfl

/-- The numbers of the book that are shown in the output file: the sums over all articles. -/
def sums (all : List ArticleStats) : ArticleStats where
  numberOfCharacters := (all.map (·.numberOfCharacters)).sum
  numberOfWords := (all.map (·.numberOfWords)).sum
  numberOfInternalLinks := (all.map (·.numberOfInternalLinks)).sum
  numberOfExternalLinks := (all.map (·.numberOfExternalLinks)).sum
  numberOfImages := (all.map (·.numberOfImages)).sum
  numberOfMath := (all.map (·.numberOfMath)).sum
  numberOfRefDefinitions := (all.map (·.numberOfRefDefinitions)).sum
  numberOfRefUsages := (all.map (·.numberOfRefUsages)).sum
  estimatedReadingTimeMinutes := (all.map (·.estimatedReadingTimeMinutes)).sum

/-- The value is an object that has each of the names once, with the number of links to it. -/
def IsLinkCount (v : Json) (all : List ArticleStats) (names : Str → Prop) : Prop :=
  ∃ f, v = .obj f ∧ ((members f).map Prod.fst).Nodup ∧ (∀ name, name ∈ (members f).map Prod.fst ↔ names name) ∧
    ∀ p ∈ members f, p.2 = .num (linksTo all p.1)

theorem isLinkCount_of {v : Json} {m : Counts} {all : List ArticleStats} {names : Str → Prop} (h : IsMap v m) (hn : m.keys.Nodup)
    (hk : ∀ name, name ∈ m.keys ↔ names name) (hg : ∀ p ∈ m, p.2 = linksTo all p.1) : IsLinkCount v all names := by
  obtain ⟨f, rfl, hf⟩ := h
  have hp : (members f).map Prod.fst ~ m.keys := by
    have := hf.map Prod.fst
    rw [List.map_map] at this
    exact this
  refine ⟨f, rfl, hp.nodup_iff.mpr hn, fun name => hp.mem_iff.trans (hk name), fun p hp => ?_⟩
  obtain ⟨q, hq, rfl⟩ := List.mem_map.mp (hf.mem_iff.mp hp)
  exact congrArg Json.num (hg q hq)

/-- From the files of the articles to the output file: the output file is a JSON text with the sums of the numbers of all
articles, the number of links to each name, those to names out of the book, and the ten most frequent ones of them. -/
theorem C72_statistics_of_the_book (content : Str → Option Str) (env : StatsEnv)
    (hread : ∀ file, env.read file = (content file).bind unmarshalStats)
    (hrange : ∀ i m, env.range i m ~ m) (hsort : ∀ f l, env.sort f l ~ l)
    (hsorted : ∀ f l, (env.sort f l).Pairwise fun a b => f b ≤ f a)
    (files : List Str) (all : List ArticleStats) (hs : ∀ s ∈ all, Sound s) (hb : ∀ s ∈ all, SmallNumbers s)
    (hf : files.map content = all.map fun s => some (articleStatsFile s)) :
    ∃ c f links uncovered top, combinedStats env b!"stats-json" files = .ok c ∧
      jsonText (bookStatsFile c) = some (.obj f) ∧ members f = statsMembers (sums all) links uncovered top ∧
      IsLinkCount links all (fun name => ∃ s ∈ all, name ∈ s.internalLinks.keys) ∧
      IsLinkCount uncovered all (Uncovered all) ∧
      ∃ names : List Str, names.Nodup ∧ (∀ name, name ∈ names ↔ Uncovered all name) ∧
        names.Pairwise (fun a b => linksTo all b ≤ linksTo all a) ∧
        IsLinkCount top all (fun name => name ∈ names.take 10) := by
  have he : Honest env := by
    refine ⟨hrange, hsort, hsorted, fun f s h => ?_⟩
    rw [hread] at h
    obtain ⟨t, -, ht⟩ := Option.bind_eq_some_iff.mp h
    exact unmarshal_nodup t s ht
  have ha : files.map env.read = (all.map readBack).map some := by
    have h1 : files.map env.read = (files.map content).map fun o => o.bind unmarshalStats := by
      rw [List.map_map]; exact List.map_congr_left fun f _ => hread f
    rw [h1, hf, List.map_map, List.map_map]
    exact List.map_congr_left fun s h => unmarshal_articleStatsFile s (hs s h) (hb s h)
  obtain ⟨c, hc, ⟨n1, n2, n3, n4, n5, n6, n7, n8, n9⟩, lg, lk, ln, un, uk, ug, names, hp, hpw, htop⟩ :=
    combinedStats_ok env he b!"stats-json" (.inl rfl) files _ ha
  have hname := combinedStats_name _ _ _ _ hc
  simp only [List.map_map, linksTo_readBack hs] at n1 n2 n3 n4 n5 n6 n7 n8 n9 lg ug hpw htop
  have lk' : ∀ name, name ∈ c.internalLinks.keys ↔ ∃ s ∈ all, name ∈ s.internalLinks.keys := by
    intro name
    rw [lk]
    simp only [List.mem_map, exists_exists_and_eq_and, keys_readBack]
  simp only [uncovered_readBack] at uk ug
  have valid : ∀ name, (∃ s ∈ all, name ∈ s.internalLinks.keys) → ValidText name :=
    fun name ⟨s, h1, h2⟩ => (hs s h1).links.2 name h2
  have hnn : names.Nodup := hp.nodup_iff.mpr un
  have hmem : ∀ name, name ∈ names ↔ Uncovered all name := fun name => hp.mem_iff.trans (uk name)
  have tk : c.top10UncoveredInternalLinks.keys = names.take 10 := by
    rw [htop, Counts.keys, List.map_map]
    exact List.map_id _
  have tn : c.top10UncoveredInternalLinks.keys.Nodup := by rw [tk]; exact hnn.sublist (List.take_sublist _ _)
  have hsound : Sound c := by
    refine ⟨by rw [hname]; exact ⟨[], by simp, rfl⟩, ⟨ln, fun k hk => valid k ((lk' k).mp hk)⟩,
      ⟨un, fun k hk => valid k ((uk k).mp hk).1⟩, tn, fun k hk => ?_⟩
    rw [tk] at hk
    exact valid k ((hmem k).mp (List.mem_of_mem_take hk)).1
  obtain ⟨f, links, uncovered, top, hj, hmf, i1, i2, i3⟩ := C72_file_of_the_book c hsound
  refine ⟨c, f, links, uncovered, top, hc, hj, ?_, ?_, ?_, names, hnn, hmem, hpw, ?_⟩
  · rw [hmf]
    simp only [statsMembers, sums, hname]
    rw [n1, n2, n3, n4, n5, n6, n7, n8, n9]
    rfl
  · refine isLinkCount_of i1 ln lk' fun p hp => ?_
    rw [← lg p.1]
    exact ((Counts.mem_iff ln p.1 p.2).mp hp).2.symm
  · refine isLinkCount_of i2 un uk fun p hp => ?_
    have := (Counts.mem_iff un p.1 p.2).mp hp
    rw [← ug p.1 ((uk p.1).mp this.1)]
    exact this.2.symm
  · refine isLinkCount_of i3 tn (fun name => by rw [tk]) fun p hp => ?_
    rw [htop] at hp
    obtain ⟨name, -, rfl⟩ := List.mem_map.mp hp
    rfl

theorem readStats_result (env : StatsEnv) (files : List Str) (i : Nat) (c : ArticleStats) (articles : List Str) :
    (∃ r, readStats env files i c articles = .ok r) ∨ readStats env files i c articles = .err := by
  induction files generalizing i c articles with
  | nil => exact .inl ⟨_, rfl⟩
  | cons f files ih =>
    rw [readStats]
    split
    · exact .inr rfl
    · exact ih _ _ _

/-- Whatever is in the files, and whatever the output type is: there are statistics or an error, never a crash. -/
theorem C72_statistics_or_error (env : StatsEnv) (outputType : Str) (files : List Str) :
    (∃ c, combinedStats env outputType files = .ok c ∧ outputType ∈ [b!"stats-json", b!"stats-txt"]) ∨
      combinedStats env outputType files = .err := by
  unfold combinedStats
  rcases readStats_result env files 0 {} [] with ⟨r, h⟩ | h
  · rw [h]
    simp only [bind, Res.bind]
    split
    · rename_i ho
      exact .inl ⟨_, rfl, by simpa using ho⟩
    · exact .inr rfl
  · rw [h]
    exact .inr rfl

/-! ## Example -/

def paris : ArticleStats :=
  { articleName := b!"Paris <\"P\">", numberOfCharacters := 120, numberOfWords := 21, numberOfInternalLinks := 3,
    internalLinks := [(b!"Seine", 2), (b!"Île", 1)] }

example : articleStatsFile paris = b!"{
  \"article-name\": \"Paris \\u003c\\\"P\\\"\\u003e\",
  \"number-of-characters\": 120,
  \"number-of-words\": 21,
  \"number-of-internal-links\": 3,
  \"number-of-external-links\": 0,
  \"number-of-images\": 0,
  \"number-of-math\": 0,
  \"number-of-ref-definitions\": 0,
  \"number-of-ref-usages\": 0,
  \"internal-links\": {
    \"Seine\": 2,
    \"Île\": 1
  },
  \"uncovered-internal-links\": {},
  \"top-10-uncovered-internal-links\": null,
  \"estimated-reading-time-minutes\": 0
}" := by decide +kernel

theorem paris_sound : Sound paris := by
  refine ⟨validText_ascii (by decide), ⟨by decide, ?_⟩, ⟨by decide, fun _ h => by cases h⟩, by decide, fun _ h => by cases h⟩
  intro key hk
  simp only [paris, Counts.keys, List.map_cons, List.map_nil, List.mem_cons, List.not_mem_nil, or_false] at hk
  rcases hk with rfl | rfl
  · exact validText_ascii (by decide)
  · exact ⟨[0xCE, 0x6C, 0x65], by decide, by decide +kernel⟩

theorem paris_small : SmallNumbers paris := by
  constructor <;> (first | (intro p hp; revert p; unfold Fits64; decide) | (unfold Fits64; decide))

example : (∀ s ∈ [paris, paris], Sound s ∧ SmallNumbers s) ∧ [b!"a", b!"b"].map (fun _ => some (articleStatsFile paris)) =
    [paris, paris].map fun s => some (articleStatsFile s) := by
  refine ⟨?_, rfl⟩
  intro s hs
  simp only [List.mem_cons, List.not_mem_nil, or_false, or_self] at hs
  subst hs
  exact ⟨paris_sound, paris_small⟩

example : ∃ front back, articleStatsFile paris = front ++ back ∧ back ≠ [] ∧ b!"a" ∈ [b!"b", b!"a"] :=
  ⟨(articleStatsFile paris).take 300, (articleStatsFile paris).drop 300, (List.take_append_drop _ _).symm, by decide +kernel, by decide⟩

end Verif.Props
