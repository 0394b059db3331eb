import Verif.Lemmas.HaltImages

/-!
# Termination of the tokenizer: lists and paragraphs
-/

namespace Verif.Lemmas
open Verif.Go Verif.Model Verif.Spec
open scoped List

variable {rec : Nat → Rec} {M : Nat ×ₗ Nat}

/-! ### Lists -/

theorem isMark_of_listChar {c : Byte} (h : isListChar c = true) : isMark c = true := by
  simp only [isListChar, Bool.or_eq_true, decide_eq_true_eq] at h
  rcases h with ((rfl | rfl) | rfl) | rfl <;> decide

theorem listChar_of_belongs {c p : Byte} {t : Str} (hp : isListChar p = true) (h : belongsTo (c :: t) p = true) : isListChar c = true := by
  unfold belongsTo at h
  simp only at h
  split at h
  · simp only [Bool.or_eq_true, decide_eq_true_eq] at h
    rcases h with rfl | rfl <;> decide
  · rw [decide_eq_true_eq] at h; rw [h]; exact hp

theorem belongs_self {d : Byte} (t : Str) : belongsTo (d :: t) d = true := by
  unfold belongsTo
  simp only
  split
  · rename_i h; simp [h]
  · simp

/-- The number of characters and lines. -/
def mass (ls : List Str) : Nat := (ls.map fun l => l.length + 1).sum

theorem mass_cons (l : Str) (ls : List Str) : mass (l :: ls) = l.length + 1 + mass ls := by simp [mass]

theorem mass_takeWhile (p : Str → Bool) (ls : List Str) : mass (ls.takeWhile p) ≤ mass ls := by
  induction ls with
  | nil => exact Nat.le_refl _
  | cons l ls ih =>
    rw [List.takeWhile_cons]
    split
    · rw [mass_cons, mass_cons]; omega
    · simp [mass]

theorem mass_map_le {f : Str → Str} (hf : ∀ l, (f l).length ≤ l.length) (ls : List Str) : mass (ls.map f) ≤ mass ls := by
  induction ls with
  | nil => exact Nat.le_refl _
  | cons l ls ih => rw [List.map_cons, mass_cons, mass_cons]; have := hf l; omega

theorem mass_drop (ls : List Str) (n : Nat) : mass (ls.drop n) ≤ mass ls := by
  induction ls generalizing n with
  | nil => simp
  | cons l ls ih =>
    cases n with
    | zero => exact Nat.le_refl _
    | succ n => rw [List.drop_succ_cons, mass_cons]; have := ih n; omega

theorem lineItems_halts (hrec : RecHalts rec M) (c : Byte) (text : Str) (hm : size text < M) :
    Halts (fun n _ => lineItems (rec n) c text) fun _ => True := by
  unfold lineItems
  refine Halts.ite (fun _ => ?_) fun _ => Halts.ite (fun _ => ?_) fun _ => ?_
  · cases hc : cut b!":" text with
    | none => exact Halts.bind (hrec _ hm) fun _ _ => Halts.pure trivial
    | some p =>
      obtain ⟨a, b⟩ := p
      have e := cut_eq_some hc
      have ha : size a < M := by
        refine lt_of_le_of_lt (Fits.of_sublist ?_).size_le hm
        rw [e, List.append_assoc]; exact List.sublist_append_left _ _
      have hb : size b < M := by
        refine lt_of_le_of_lt (Fits.of_sublist ?_).size_le hm
        rw [e]; exact List.sublist_append_right _ _
      exact Halts.bind (hrec _ ha) fun _ _ => Halts.bind (hrec _ hb) fun _ _ => Halts.pure trivial
  · exact Halts.bind (hrec _ hm) fun _ _ => Halts.pure trivial
  · exact Halts.bind (hrec _ hm) fun _ _ => Halts.pure trivial

theorem takeWhile_all {p : Str → Bool} {ls : List Str} : ∀ l ∈ ls.takeWhile p, p l = true := by
  induction ls with
  | nil => intro l h; cases h
  | cons x ls ih =>
    intro l h
    rw [List.takeWhile_cons] at h
    split at h
    · rename_i hx
      rcases List.mem_cons.mp h with rfl | h
      · exact hx
      · exact ih l h
    · cases h

theorem tokenizeList_of_items {k : Nat} (hitems : ∀ (listPrefix : Byte) (ls : List Str) (items : List ItemTok), isListChar listPrefix = true →
      mass ls ≤ k → (∀ l ∈ ls, belongsTo l listPrefix = true ∧ size l ≤ M) → Halts (fun n m => listItems (rec n) m listPrefix ls items) fun _ => True)
    (lines : List Str) (d : Byte) (hd : isListChar d = true) (hk : mass lines ≤ k) (hm : ∀ l ∈ lines, size l ≤ M) :
    Halts (fun n m => tokenizeList (rec n) m lines d) fun r =>
      Bare r.2.1 ∧ r.2.2 = ((lines.map trimSpace).takeWhile fun l => belongsTo l d).length := by
  refine Halts.succ ?_
  simp only [tokenizeList]
  refine Halts.bind (hitems d _ [] hd ?_ fun l hl => ⟨takeWhile_all l hl, ?_⟩) fun items _ => ?_
  · exact (mass_takeWhile _ _).trans ((mass_map_le (fun l => (trimSpace_sublist l).length_le) _).trans hk)
  · obtain ⟨l', hl', rfl⟩ := List.mem_map.mp ((List.takeWhile_sublist _).mem hl)
    exact (Fits.of_sublist (trimSpace_sublist l')).size_le.trans (hm _ hl')
  · refine Halts.bind (Halts.getToken ?_) fun key hkey => ?_
    · unfold listTokenKey; split
      · decide
      · split <;> decide
    · exact Halts.bind (Halts.setRawToken (P := fun _ => True) _ _ trivial) fun _ _ => Halts.pure ⟨hkey, rfl⟩

theorem listItems_halts (hrec : RecHalts rec M) (k : Nat) : ∀ (listPrefix : Byte) (ls : List Str) (items : List ItemTok),
    isListChar listPrefix = true → mass ls ≤ k → (∀ l ∈ ls, belongsTo l listPrefix = true ∧ size l ≤ M) →
    Halts (fun n m => listItems (rec n) m listPrefix ls items) fun _ => True := by
  induction k with
  | zero =>
    intro listPrefix ls items _ hk _
    refine Halts.succ ?_
    cases ls with
    | nil => simp only [listItems]; exact Halts.pure trivial
    | cons l ls => rw [mass_cons] at hk; omega
  | succ k ih =>
    intro listPrefix ls items hp hk h
    refine Halts.succ ?_
    cases ls with
    | nil => simp only [listItems]; exact Halts.pure trivial
    | cons l rest =>
      rw [mass_cons] at hk
      have h' : ∀ l ∈ rest, belongsTo l listPrefix = true ∧ size l ≤ M := fun l hl => h l (by simp [hl])
      cases l with
      | nil => simp only [listItems]; exact ih _ _ _ hp (by omega) h'
      | cons c text =>
        obtain ⟨hb, hm⟩ := h (c :: text) (by simp)
        have hc := isMark_of_listChar (listChar_of_belongs hp hb)
        have htext : size text < M := by
          refine lt_of_lt_of_le (size_lt.mpr ?_) hm
          rw [lts_cons, wt_cons, hc, if_pos rfl]
          omega
        have plain : Halts (fun n m => do
            let new ← lineItems (rec n) c text
            listItems (rec n) m listPrefix rest (items ++ new)) fun _ => True :=
          Halts.bind (lineItems_halts hrec c text htext) fun new _ => ih _ _ _ hp (by omega) h'
        cases text with
        | nil => simp only [listItems]; exact plain
        | cons d text =>
          simp only [listItems]
          refine Halts.ite (fun hd => ?_) fun _ => plain
          have hlen : 1 ≤ ((((c :: d :: text) :: rest).map List.tail).takeWhile fun l => belongsTo l d).length := by
            rw [List.map_cons, List.tail_cons, List.takeWhile_cons, if_pos (belongs_self text)]
            simp
          have hsub : ∀ l ∈ (((c :: d :: text) :: rest).map List.tail).takeWhile fun l => belongsTo l d, size l ≤ M := by
            intro l hl
            obtain ⟨l', hl', rfl⟩ := List.mem_map.mp ((List.takeWhile_sublist _).mem hl)
            exact (Fits.of_sublist (List.tail_sublist l')).size_le.trans (h l' hl').2
          have hmass : mass ((((c :: d :: text) :: rest).map List.tail).takeWhile fun l => belongsTo l d) ≤ k := by
            refine (mass_takeWhile _ _).trans ?_
            rw [List.map_cons, List.tail_cons, mass_cons]
            have := mass_map_le (f := List.tail) (fun l => by simp) rest
            simp only [List.length_cons] at hk ⊢
            omega
          refine Halts.bind (tokenizeList_of_items ih _ d hd hmass hsub) fun r _ => ?_
          refine ih _ _ _ hp ?_ fun l hl => h l (List.mem_of_mem_drop hl)
          obtain ⟨j, hj⟩ := Nat.exists_eq_add_of_le' hlen
          rw [hj, List.drop_succ_cons]
          have := mass_drop rest j
          omega

theorem tokenizeList_halts (hrec : RecHalts rec M) (lines : List Str) (d : Byte) (hd : isListChar d = true) (hm : ∀ l ∈ lines, size l ≤ M) :
    Halts (fun n m => tokenizeList (rec n) m lines d) fun r =>
      Bare r.2.1 ∧ r.2.2 = ((lines.map trimSpace).takeWhile fun l => belongsTo l d).length :=
  tokenizeList_of_items (listItems_halts hrec (mass lines)) lines d hd (Nat.le_refl _) hm

theorem flatten_drop_fits (ls : List Str) (n : Nat) : Fits (ls.drop n).flatten ls.flatten := by
  have h := congrArg List.flatten (List.take_append_drop n ls)
  rw [List.flatten_append] at h
  rw [← h]
  exact Fits.of_sublist (List.sublist_append_right _ _)

theorem parseListLines_halts (hrec : RecHalts rec M) (k : Nat) : ∀ (lines : List Str), lines.length ≤ k → (∀ l ∈ lines, size l ≤ M) →
    Halts (fun n m => parseListLines (rec n) m lines) (LineStep lines) := by
  induction k with
  | zero =>
    intro lines hk _
    rw [List.length_eq_zero_iff.mp (by omega : lines.length = 0)]
    refine Halts.succ ?_
    simp only [parseListLines]
    exact Halts.pure (.inl rfl)
  | succ k ih =>
    intro lines hk hm
    refine Halts.succ ?_
    cases lines with
    | nil => simp only [parseListLines]; exact Halts.pure (.inl rfl)
    | cons line rest =>
      simp only [List.length_cons] at hk
      have plain : Halts (fun n m => do
          let rest ← parseListLines (rec n) m rest
          pure (line :: rest)) (LineStep (line :: rest)) :=
        Halts.bind (ih rest (by omega) fun l hl => hm l (by simp [hl])) fun r hr => Halts.pure (LineStep.cons (.inl rfl) hr)
      simp only [parseListLines]
      cases ht : trimSpace line with
      | nil => exact plain
      | cons c t =>
        simp only
        refine Halts.ite (fun hc => ?_) fun _ => plain
        refine Halts.bind (tokenizeList_halts hrec _ c hc hm) fun r hr => ?_
        obtain ⟨token, key, n⟩ := r
        obtain ⟨hkey, hn⟩ := hr
        have hlen : 1 ≤ n := by
          rw [show n = _ from hn, List.map_cons, ht, List.takeWhile_cons, if_pos (belongs_self t)]
          simp
        obtain ⟨j, rfl⟩ := Nat.exists_eq_add_of_le' hlen
        simp only [List.drop_succ_cons]
        refine Halts.bind (ih (rest.drop j) (by simp; omega) fun l hl => hm l (List.mem_cons_of_mem _ (List.mem_of_mem_drop hl))) fun r hr => ?_
        refine Halts.pure (.inr ?_)
        have h1 := hr.size_le
        rw [size_le] at h1
        have h2 := flatten_drop_fits rest j
        have h21 := h2.1; have h22 := h2.2
        have h3 := Fits.of_sublist (trimSpace_sublist line)
        have h31 := h3.1; have h32 := h3.2
        rw [ht, wt_cons, isMark_of_listChar hc, if_pos rfl] at h32
        rw [size_lt]
        simp only [List.flatten_cons, lts_append, wt_append, hkey.1, hkey.2]
        have hk1 : lts key = 0 := hkey.1
        have hk2 : wt key = 0 := hkey.2
        omega

theorem size_of_line {content : Str} (hm : size content ≤ M) : ∀ l ∈ split content b!"\n", size l ≤ M :=
  fun _ hl => (Fits.of_sublist (split_piece (by decide) hl)).size_le.trans hm

theorem parseLists_halts (hrec : RecHalts rec M) (content : Str) (hm : size content ≤ M) :
    Halts (fun n m => parseLists (rec n) m content) (Step content) := by
  unfold parseLists
  exact Halts.bind (parseListLines_halts hrec _ _ (Nat.le_refl _) (size_of_line hm)) fun ls hls => Halts.pure hls.step

/-! ### Paragraphs -/

/-- The number of empty lines. -/
def emptyLines (s : Str) : Nat := (split s b!"\n").count []

/-- The brackets of a text. -/
def brackets (s : Str) : Str := s.filter fun c => decide (c = 0x5B ∨ c = 0x5D)

@[simp] theorem brackets_append (a b : Str) : brackets (a ++ b) = brackets a ++ brackets b := List.filter_append _ _

theorem brackets_cons (c : Byte) (t : Str) : brackets (c :: t) = if c = 0x5B ∨ c = 0x5D then c :: brackets t else brackets t := by
  rw [brackets, List.filter_cons]
  simp only [decide_eq_true_eq]
  rfl

theorem un_of_brackets (s : Str) : un s = un (brackets s) := by
  have hs : ∀ s : Str, startsOpen s = startsOpen (brackets s) := by
    intro s
    induction s with
    | nil => rfl
    | cons c t ih =>
      rw [brackets_cons]
      by_cases h1 : c = 0x5B
      · subst h1; rfl
      · by_cases h2 : c = 0x5D
        · subst h2; rfl
        · rw [if_neg (by simp [h1, h2]), startsOpen, if_neg h2, if_neg h1, ih]
  induction s with
  | nil => rfl
  | cons c t ih =>
    rw [brackets_cons]
    by_cases h1 : c = 0x5B ∨ c = 0x5D
    · rw [if_pos h1, un, un, ih, hs t]
    · rw [if_neg h1, un, ih, if_neg (fun h => h1 (.inl h.1)), Nat.add_zero]

theorem filter_lines (l : List Str) : brackets (join b!"\n" l) = brackets l.flatten := by
  match l with
  | [] => rfl
  | [p] => simp [join]
  | p :: q :: r =>
    have ih := filter_lines (q :: r)
    rw [join, List.flatten_cons, brackets_append, brackets_append, brackets_append, ih]
    simp [show brackets b!"\n" = [] by decide]

/-- Paragraphs change neither the size nor the brackets; an added line comes with an empty line that is removed. -/
theorem paragraphLines_spec (lines : List Str) : ∀ (lineBefore : Str) (ignore create : Bool),
    let r := paragraphLines lines lineBefore ignore create
    lts r.flatten = lts lines.flatten ∧ wt r.flatten = wt lines.flatten ∧
    brackets r.flatten = brackets lines.flatten ∧
    r.count [] ≤ lines.count [] ∧ (create = false → r = lines ∨ r.count [] < lines.count []) := by
  have hmark : lts markerParagraph = 0 ∧ wt markerParagraph = 0 ∧
    brackets markerParagraph = [] ∧ markerParagraph ≠ [] := by decide
  obtain ⟨m1, m2, m3, m4⟩ := hmark
  induction lines with
  | nil => intro _ _ _; simp [paragraphLines]
  | cons line rest ih =>
    intro lineBefore ignore create
    have keep : ∀ (b : Str) (i c : Bool), let r := line :: paragraphLines rest b i c
        lts r.flatten = lts (line :: rest).flatten ∧ wt r.flatten = wt (line :: rest).flatten ∧
        brackets r.flatten = brackets (line :: rest).flatten ∧
        r.count [] ≤ (line :: rest).count [] ∧ (c = false → r = line :: rest ∨ r.count [] < (line :: rest).count []) := by
      intro b i c
      obtain ⟨h1, h2, h3, h4, h5⟩ := ih b i c
      refine ⟨by simp [h1], by simp [h2], by simp [h3], by rw [List.count_cons, List.count_cons]; omega, fun hc => ?_⟩
      rcases h5 hc with h5 | h5
      · left; rw [h5]
      · right; rw [List.count_cons, List.count_cons]; omega
    have remove : ∀ (b : Str) (i c : Bool), line = [] → let r := paragraphLines rest b i c
        lts r.flatten = lts (line :: rest).flatten ∧ wt r.flatten = wt (line :: rest).flatten ∧
        brackets r.flatten = brackets (line :: rest).flatten ∧
        r.count [] ≤ (line :: rest).count [] ∧ (create = false → r = line :: rest ∨ r.count [] < (line :: rest).count []) := by
      intro b i c hl
      obtain ⟨h1, h2, h3, h4, h5⟩ := ih b i c
      subst hl
      refine ⟨by simp [h1], by simp [h2], by simp [h3], ?_, fun _ => .inr ?_⟩ <;> rw [List.count_cons] <;> simp <;> omega
    rw [paragraphLines]
    split
    · obtain ⟨h1, h2, h3, h4, h5⟩ := keep line true false
      exact ⟨h1, h2, h3, h4, fun _ => h5 rfl⟩
    · split
      · split
        · obtain ⟨h1, h2, h3, h4, h5⟩ := keep line false false
          split
          · rename_i hc
            refine ⟨?_, ?_, ?_, ?_, fun h => absurd (h.symm.trans hc) (by decide)⟩
            · rw [← h1]; simp [m1]
            · rw [← h2]; simp [m2]
            · rw [← h3]; simp [m3]
            · rw [List.singleton_append, List.count_cons]; simp [m4]; omega
          · exact ⟨h1, h2, h3, h4, fun _ => h5 rfl⟩
        · rename_i hl
          exact remove _ _ _ (not_not.mp hl)
      · split
        · rename_i hl
          exact remove _ _ _ hl.1
        · exact keep _ _ _

theorem mem_paragraphLines (lines : List Str) : ∀ (b : Str) (i c : Bool), ∀ l ∈ paragraphLines lines b i c, l ∈ lines ∨ l = markerParagraph := by
  induction lines with
  | nil => intro b i c l h; simp [paragraphLines] at h
  | cons line rest ih =>
    intro b i c l h
    have keep : ∀ (b : Str) (i c : Bool), l ∈ line :: paragraphLines rest b i c → l ∈ line :: rest ∨ l = markerParagraph := by
      intro b i c h
      rcases List.mem_cons.mp h with rfl | h
      · left; simp
      · rcases ih _ _ _ l h with h | h
        · left; simp [h]
        · exact .inr h
    have remove : ∀ (b : Str) (i c : Bool), l ∈ paragraphLines rest b i c → l ∈ line :: rest ∨ l = markerParagraph := by
      intro b i c h
      rcases ih _ _ _ l h with h | h
      · left; simp [h]
      · exact .inr h
    rw [paragraphLines] at h
    split at h
    · exact keep _ _ _ h
    · split at h
      · split at h
        · rcases List.mem_append.mp h with h | h
          · split at h
            · exact .inr (List.mem_singleton.mp h)
            · cases h
          · exact keep _ _ _ h
        · exact remove _ _ _ h
      · split at h
        · exact remove _ _ _ h
        · exact keep _ _ _ h

theorem paragraphLines_nil (lines : List Str) : ∀ (b : Str) (i c : Bool), paragraphLines lines b i c = [] → ∀ l ∈ lines, l = [] := by
  induction lines with
  | nil => intro _ _ _ _ l h; cases h
  | cons line rest ih =>
    intro b i c h
    have : line = [] ∧ ∃ b i c, paragraphLines rest b i c = [] := by
      rw [paragraphLines] at h
      split at h
      · cases h
      · split at h
        · split at h
          · simp at h
          · rename_i hl
            exact ⟨not_not.mp hl, _, _, _, h⟩
        · split at h
          · rename_i hl; exact ⟨hl.1, _, _, _, h⟩
          · cases h
    obtain ⟨hl, b, i, c, h⟩ := this
    intro l hm
    rcases List.mem_cons.mp hm with rfl | hm
    · exact hl
    · exact ih b i c h l hm

theorem parseParagraphs_spec (content : Str) : parseParagraphs content = content ∨
    (size (parseParagraphs content) = size content ∧ un (parseParagraphs content) = un content ∧
      emptyLines (parseParagraphs content) < emptyLines content) := by
  obtain ⟨h1, h2, h3, h4, h5⟩ := paragraphLines_spec (split content b!"\n") [] true false
  have hj := join_split_self content (sep := b!"\n") (by decide)
  rcases h5 rfl with h5 | h5
  · left; rw [parseParagraphs, h5, hj]
  · have hl := size_lines (paragraphLines (split content b!"\n") [] true false)
    have hs := size_split content
    have e1 : size (parseParagraphs content) = size content := by
      rw [size, size, parseParagraphs, hl.1, hl.2, h1, h2, hs.1, hs.2]
    have e2 : un (parseParagraphs content) = un content := by
      rw [un_of_brackets, parseParagraphs, filter_lines, h3, ← filter_lines, hj, ← un_of_brackets]
    by_cases hne : paragraphLines (split content b!"\n") [] true false = []
    · have he : parseParagraphs content = [] := by rw [parseParagraphs, hne]; rfl
      have hall := paragraphLines_nil _ _ _ _ hne
      have hsp := split_ne_nil content (sep := b!"\n") (by decide)
      match hc : split content b!"\n" with
      | [] => exact absurd hc hsp
      | [p] =>
        left
        rw [hc] at hall
        rw [he, ← hj, hc, hall p (by simp)]
        rfl
      | p :: q :: r =>
        right
        refine ⟨e1, e2, ?_⟩
        rw [hc] at hall
        rw [he, emptyLines, emptyLines, hc, hall p (by simp), hall q (by simp)]
        simp
    · right
      refine ⟨e1, e2, ?_⟩
      rw [emptyLines, emptyLines, parseParagraphs, split_join_singleton hne]
      · exact h5
      · intro p hp
        rcases mem_paragraphLines _ _ _ _ p hp with h | rfl
        · exact not_mem_of_mem_split_singleton h
        · decide

end Verif.Lemmas
