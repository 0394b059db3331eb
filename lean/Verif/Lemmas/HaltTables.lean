import Verif.Lemmas.HaltLists

/-!
# Termination of the tokenizer: tables
-/

namespace Verif.Lemmas
open Verif.Go Verif.Model Verif.Spec
open scoped List

variable {rec : Nat → Rec} {M : Nat ×ₗ Nat}

theorem space_visible {l : Str} (h : AllSpace spaceChars l) : ∀ c ∈ b!":{|!", c ∉ l := by
  obtain ⟨cs, hcs, rfl⟩ := h
  intro c hc hm
  obtain ⟨p, hp, hm⟩ := List.mem_flatten.mp hm
  exact (by decide : ∀ p ∈ spaceChars, ∀ c ∈ b!":{|!", c ∉ p) p (hcs p hp) c hc hm

/-- The line begins a table. -/
def TableLine (line : Str) : Prop := ∃ c t, trimSpace line = c :: t ∧ (c = 0x3A ∨ c = 0x7B)

theorem TableLine.visible {c : Byte} (h : c = 0x3A ∨ c = 0x7B) : c ∈ b!":{|!" := by rcases h with rfl | rfl <;> decide

/-- The first visible character is known from the spaces in front of it. -/
theorem head_of_spaces {l v : Str} {c : Byte} (hl : AllSpace spaceChars l) (hc : c = 0x3A ∨ c = 0x7B) {p : Byte} (hp : p ∈ b!"|!") :
    ∀ t, trimSpace (l ++ c :: v) ≠ p :: t := by
  intro t ht
  obtain ⟨-, -, l', r', hl', -, e⟩ := trimSpace_spec (l ++ c :: v)
  rw [ht] at e
  have hpv : p ∈ b!":{|!" := List.mem_cons_of_mem _ (List.mem_cons_of_mem _ hp)
  have hcv := TableLine.visible hc
  rw [List.append_assoc, List.cons_append] at e
  have hn : ∀ n : Nat, (l ++ c :: v)[n]? = (l' ++ p :: (t ++ r'))[n]? := fun n => by rw [e]
  rcases Nat.lt_trichotomy l'.length l.length with h | h | h
  · have := hn l'.length
    rw [List.getElem?_append_left h, List.getElem?_append_right (Nat.le_refl _)] at this
    simp at this
    exact space_visible hl p hpv (List.mem_of_getElem? this)
  · have := hn l.length
    rw [List.getElem?_append_right (Nat.le_refl _), ← h, List.getElem?_append_right (Nat.le_refl _)] at this
    simp at this
    subst this
    rcases hc with rfl | rfl <;> exact absurd hp (by decide)
  · have := hn l.length
    rw [List.getElem?_append_right (Nat.le_refl _), List.getElem?_append_left h] at this
    simp at this
    exact space_visible hl' c hcv (List.mem_of_getElem? this.symm)

theorem split_append_head {a s : Str} (h : (0x0A : Byte) ∉ a) : ∃ q ls, split (a ++ s) b!"\n" = (a ++ q) :: ls := by
  induction a with
  | nil =>
    cases hs : split s b!"\n" with
    | nil => exact absurd hs (split_ne_nil s (by decide))
    | cons q ls => exact ⟨q, ls, by simpa using hs⟩
  | cons c a ih =>
    obtain ⟨q, ls, e⟩ := ih fun hm => h (by simp [hm])
    refine ⟨q, ls, ?_⟩
    rw [List.cons_append, split_cons_of_not_prefix, e]
    · rfl
    · intro hp
      rw [List.cons_prefix_cons] at hp
      exact h (by simp [hp.1])

theorem tableEntry_halts (hrec : RecHalts rec M) (content : Str) (hm : size content < M) :
    Halts (fun n _ => tableEntry (rec n) content) fun _ => True := by
  unfold tableEntry
  have hp : ∀ p ∈ split content b!"|", size p < M := fun p hp => lt_of_le_of_lt (Fits.of_sublist (split_piece (by decide) hp)).size_le hm
  generalize split content b!"|" = l at hp
  match l, hp with
  | a :: text :: _, hp => exact Halts.bind (hrec _ (hp text (by simp))) fun _ _ => Halts.pure trivial
  | [a], _ => exact Halts.bind (hrec _ hm) fun _ _ => Halts.pure trivial
  | [], _ => exact Halts.bind (hrec _ hm) fun _ _ => Halts.pure trivial

theorem cellLines_spec (lines : List Str) : ∀ (first : Bool) {ls after : List Str}, cellLines lines first = .ok (ls, after) →
    Fits (ls.flatten ++ after.flatten) lines.flatten ∧ after.length ≤ lines.length := by
  induction lines with
  | nil => intro first ls after h; rw [cellLines] at h; cases h
  | cons line rest ih =>
    intro first ls after h
    rw [cellLines] at h
    simp only at h
    generalize hl0 : (if first = true then trimSpace line else line) = l0 at h
    have hf0 : Fits l0 line := by
      rw [← hl0]
      split
      · exact Fits.of_sublist (trimSpace_sublist _)
      · exact .refl _
    split at h
    · cases h; exact ⟨.refl _, Nat.le_refl _⟩
    · cases hc : cellLines rest false with
      | ok p =>
        obtain ⟨ls', after'⟩ := p
        rw [hc] at h
        cases h
        obtain ⟨h1, h2⟩ := ih false hc
        refine ⟨?_, by simp; omega⟩
        simp only [List.flatten_cons, List.append_assoc]
        exact Fits.append hf0 h1
      | err => rw [hc] at h; cases h
      | panic => rw [hc] at h; cases h
      | fatal => rw [hc] at h; cases h

theorem captionLines_spec (lines : List Str) : ∀ {ls after : List Str}, captionLines lines = .ok (ls, after) →
    Fits (ls.flatten ++ after.flatten) lines.flatten ∧ after.length ≤ lines.length := by
  induction lines with
  | nil => intro ls after h; rw [captionLines] at h; cases h
  | cons line rest ih =>
    intro ls after h
    rw [captionLines] at h
    split at h
    · cases h; exact ⟨.refl _, Nat.le_refl _⟩
    · cases hc : captionLines rest with
      | ok p =>
        obtain ⟨ls', after'⟩ := p
        rw [hc] at h
        cases h
        obtain ⟨h1, h2⟩ := ih hc
        refine ⟨?_, by simp; omega⟩
        simp only [List.flatten_cons, List.append_assoc]
        exact Fits.append (Fits.of_sublist (trimSpace_sublist _)) h1
      | err => rw [hc] at h; cases h
      | panic => rw [hc] at h; cases h
      | fatal => rw [hc] at h; cases h

theorem flatMap_lines (ls : List Str) : lts (ls.flatMap fun l => b!"\n" ++ l) = lts ls.flatten ∧ wt (ls.flatMap fun l => b!"\n" ++ l) = wt ls.flatten := by
  have hn : lts b!"\n" = 0 ∧ wt b!"\n" = 0 := by decide
  induction ls with
  | nil => exact ⟨rfl, rfl⟩
  | cons l ls ih =>
    rw [List.flatMap_cons, List.flatten_cons]
    simp only [lts_append, wt_append]
    omega

theorem trimPrefix_sublist (s p : Str) : trimPrefix s p <+ s := by
  unfold trimPrefix
  split
  · exact List.drop_sublist _ _
  · exact .refl _

theorem tableRow_halts (hrec : RecHalts rec M) (k : Nat) : ∀ (lines : List Str), lines.length ≤ k → size lines.flatten < M →
    Halts (fun n m => tableRow (rec n) m lines) fun r => Fits r.2.flatten lines.flatten ∧ r.2.length ≤ lines.length ∧
      (∀ line rest, lines = line :: rest → endsRow line = false → r.2.length < lines.length) := by
  induction k with
  | zero =>
    intro lines hk _
    rw [List.length_eq_zero_iff.mp (by omega : lines.length = 0)]
    refine Halts.succ ?_
    simp only [tableRow]
    exact Halts.pure ⟨.refl _, Nat.le_refl _, fun _ _ h => by cases h⟩
  | succ k ih =>
    intro lines hk hm
    refine Halts.succ ?_
    cases lines with
    | nil =>
      simp only [tableRow]
      exact Halts.pure ⟨.refl _, Nat.le_refl _, fun _ _ h => by cases h⟩
    | cons line rest =>
      simp only [List.length_cons] at hk
      simp only [tableRow]
      refine Halts.ite (fun he => Halts.pure ⟨.refl _, Nat.le_refl _, fun l r h hf => ?_⟩) fun _ => ?_
      · cases h; rw [he] at hf; cases hf
      · refine Halts.bind (Halts.lift (P := fun r => Fits (r.1.flatten ++ r.2.flatten) rest.flatten ∧ r.2.length ≤ rest.length)
          fun r hr => cellLines_spec rest true hr) fun r hr => ?_
        obtain ⟨more, after⟩ := r
        obtain ⟨hf, hl⟩ := hr
        simp only at hf hl
        have hf1 := hf.1; have hf2 := hf.2
        simp only [lts_append, wt_append] at hf1 hf2
        have ht := Fits.of_sublist ((trimSpace_sublist _).trans ((trimPrefix_sublist _ b!"!").trans ((trimPrefix_sublist _ b!"|").trans (trimSpace_sublist line))))
        have ht1 := ht.1; have ht2 := ht.2
        have hcell := flatMap_lines more
        have hafter : Fits after.flatten (line :: rest).flatten := by
          constructor <;> simp only [List.flatten_cons, lts_append, wt_append] <;> omega
        refine Halts.bind (tableEntry_halts hrec _ (lt_of_le_of_lt (Fits.size_le ?_) hm)) fun c _ => ?_
        · constructor
          · simp only [List.flatten_cons, lts_append, hcell.1]; omega
          · simp only [List.flatten_cons, wt_append, hcell.2]; omega
        · refine Halts.bind (ih after (by omega) (lt_of_le_of_lt hafter.size_le hm)) fun r hr => Halts.pure ?_
          obtain ⟨cols, after'⟩ := r
          obtain ⟨h1, h2, _⟩ := hr
          exact ⟨h1.trans hafter, by simp at *; omega, fun _ _ _ _ => by simp at *; omega⟩

theorem tableCaption_halts (hrec : RecHalts rec M) (line : Str) (rest : List Str) (hm : size (line :: rest).flatten < M) :
    Halts (fun n _ => tableCaption (rec n) line rest) fun r => Fits r.2.flatten rest.flatten ∧ r.2.length ≤ rest.length := by
  unfold tableCaption
  refine Halts.bind (Halts.lift (P := fun r => Fits (r.1.flatten ++ r.2.flatten) rest.flatten ∧ r.2.length ≤ rest.length)
    fun r hr => captionLines_spec rest hr) fun r hr => ?_
  obtain ⟨more, after⟩ := r
  obtain ⟨hf, hl⟩ := hr
  simp only at hf hl
  have hf1 := hf.1; have hf2 := hf.2
  simp only [lts_append, wt_append] at hf1 hf2
  have ht := Fits.of_sublist (trimSpace_sublist line)
  have ht1 := ht.1; have ht2 := ht.2
  have hcell := flatMap_lines more
  refine Halts.bind (tableEntry_halts hrec _ (lt_of_le_of_lt (Fits.size_le ?_) hm)) fun c _ => Halts.pure ⟨?_, hl⟩
  · refine (Fits.of_sublist (trimPrefix_sublist _ _)).trans ?_
    constructor
    · simp only [List.flatten_cons, lts_append, hcell.1]; omega
    · simp only [List.flatten_cons, wt_append, hcell.2]; omega
  · constructor <;> simp only <;> omega

theorem tableRows_halts (hrec : RecHalts rec M) (k : Nat) : ∀ (lines : List Str) (caption : Str), lines.length ≤ k → size lines.flatten < M →
    Halts (fun n m => tableRows (rec n) m lines caption) fun _ => True := by
  induction k with
  | zero =>
    intro lines caption hk _
    rw [List.length_eq_zero_iff.mp (by omega : lines.length = 0)]
    refine Halts.succ ?_
    simp only [tableRows]
    exact Halts.pure trivial
  | succ k ih =>
    intro lines caption hk hm
    refine Halts.succ ?_
    cases lines with
    | nil => simp only [tableRows]; exact Halts.pure trivial
    | cons line rest =>
      simp only [List.length_cons] at hk
      have hrest : size rest.flatten < M := lt_of_le_of_lt (flatten_drop_fits (line :: rest) 1).size_le hm
      have row : ∀ (ls : List Str) (hs : size ls.flatten < M), (∀ line rest, ls = line :: rest → endsRow line = false → ls.length ≤ k + 1) →
          (ls.length ≤ k ∨ ∃ line rest, ls = line :: rest ∧ endsRow line = false) →
          Halts (fun n m => do
            let (cols, after) ← tableRow (rec n) m ls
            let (rows, caption) ← tableRows (rec n) m after caption
            pure (cols :: rows, caption)) fun _ => True := by
        intro ls hs h1 h2
        refine Halts.bind (tableRow_halts hrec _ ls (Nat.le_refl _) hs) fun r hr => ?_
        obtain ⟨cols, after⟩ := r
        obtain ⟨g1, g2, g3⟩ := hr
        simp only at g1 g2 g3
        have hlen : after.length ≤ k := by
          rcases h2 with h2 | ⟨line, rest, e, he⟩
          · omega
          · have := g3 line rest e he
            have := h1 line rest e he
            omega
        exact Halts.bind (ih after caption hlen (lt_of_le_of_lt g1.size_le hs)) fun _ _ => Halts.pure trivial
      simp only [tableRows]
      refine Halts.ite (fun _ => ?_) fun h1 => Halts.ite (fun h2 => ?_) fun _ => Halts.ite (fun _ => ?_) fun h3 =>
        Halts.ite (fun _ => Halts.pure trivial) fun h4 => Halts.ite (fun _ => ?_) fun _ => ih rest caption (by omega) hrest
      · refine Halts.bind (tableCaption_halts hrec line rest hm) fun r hr => ?_
        obtain ⟨c, after⟩ := r
        obtain ⟨g1, g2⟩ := hr
        simp only at g1 g2
        exact ih after c (by omega) (lt_of_le_of_lt g1.size_le hrest)
      · refine row (line :: rest) hm (fun _ _ _ _ => by simp; omega) (.inr ⟨line, rest, rfl, ?_⟩)
        obtain ⟨t, ht⟩ := hasPrefix_iff.mp h2
        have no : ∀ p : Str, hasPrefix (trimSpace line) (0x7C :: p) = false := by
          intro p
          rw [Bool.eq_false_iff]
          intro h
          obtain ⟨t', ht'⟩ := hasPrefix_iff.mp h
          rw [← ht] at ht'
          simp only [List.cons_append, List.cons.injEq] at ht'
          exact absurd ht'.1 (by decide)
        unfold endsRow
        rw [no, no, no]
        rfl
      · cases rest with
        | nil => exact Halts.panic
        | cons next rest =>
          refine Halts.ite (fun _ => ?_) fun _ => ih _ caption (by omega) hrest
          exact row (next :: rest) hrest (fun _ _ _ _ => by omega) (.inl (by omega))
      · refine row (line :: rest) hm (fun _ _ _ _ => by simp; omega) (.inr ⟨line, rest, rfl, ?_⟩)
        unfold endsRow
        rw [Bool.eq_false_iff.mpr h1, Bool.eq_false_iff.mpr h3, Bool.eq_false_iff.mpr h4]
        rfl

theorem tokenizeTable_halts (hrec : RecHalts rec M) (line : Str) (lines : List Str) (hline : TableLine line) (hnl : (0x0A : Byte) ∉ line)
    (hm : size (line :: lines).flatten ≤ M) : Halts (fun n m => tokenizeTable (rec n) m (join b!"\n" (line :: lines))) fun _ => True := by
  obtain ⟨c, t, hc, hcc⟩ := hline
  obtain ⟨-, -, l, r, hl, -, e⟩ := trimSpace_spec line
  rw [hc, List.append_assoc, List.cons_append] at e
  have hcm : isMark c = true := by rcases hcc with rfl | rfl <;> decide
  obtain ⟨v, hv⟩ : ∃ v, join b!"\n" (line :: lines) = l ++ c :: v := by
    cases lines with
    | nil => exact ⟨_, e⟩
    | cons a ls => exact ⟨t ++ r ++ (b!"\n" ++ join b!"\n" (a :: ls)), by rw [join, e]; simp⟩
  have hno : ∀ p ∈ b!":{|!", p ∉ l := space_visible hl
  have hlnl : (0x0A : Byte) ∉ l ++ [c] := by
    intro hmem
    rcases List.mem_append.mp hmem with hmem | hmem
    · exact hnl (by rw [e]; simp [hmem])
    · rw [List.mem_singleton] at hmem
      subst hmem
      rcases hcc with h | h <;> exact absurd h (by decide)
  have rep : ∀ (p : Byte) (new v : Str), p ∈ b!"|!" → replaceAll (l ++ c :: v) [p, p] new = l ++ c :: replaceAll v [p, p] new := by
    intro p new v hp
    have hpl : p ∉ l := hno p (List.mem_cons_of_mem _ (List.mem_cons_of_mem _ hp))
    have hcp : c ∉ [p, p] := by
      intro h
      have : c = p := by simpa using h
      subst this
      rcases hcc with rfl | rfl <;> exact absurd hp (by decide)
    rw [replaceAll_sep new (by simp) hcp, replaceAll_of_not_infix]
    intro hi
    exact hpl (hi.sublist.mem (by simp))
  have hcontent : replaceAll (replaceAll (join b!"\n" (line :: lines)) b!"||" b!"\n|") b!"!!" b!"\n!" =
      l ++ c :: replaceAll (replaceAll v b!"||" b!"\n|") b!"!!" b!"\n!" := by
    rw [hv, rep 0x7C _ _ (by decide), rep 0x21 _ _ (by decide)]
  have hfits : Fits (replaceAll (replaceAll (join b!"\n" (line :: lines)) b!"||" b!"\n|") b!"!!" b!"\n!") (line :: lines).flatten := by
    refine ((fits_replaceAll _ (by decide) (by decide)).trans (fits_replaceAll _ (by decide) (by decide))).trans ?_
    have := size_lines (line :: lines)
    exact ⟨this.1.le, this.2.le⟩
  unfold tokenizeTable
  refine Halts.bind (P := fun _ => True) ?_ fun _ _ => Halts.pure trivial
  generalize hcd : replaceAll (replaceAll (join b!"\n" (line :: lines)) b!"||" b!"\n|") b!"!!" b!"\n!" = content at *
  obtain ⟨q, ls, hsplit⟩ := split_append_head (a := l ++ [c]) (s := replaceAll (replaceAll v b!"||" b!"\n|") b!"!!" b!"\n!") hlnl
  rw [List.append_assoc, List.singleton_append, ← hcontent] at hsplit
  have hsz := size_split content
  rw [hsplit] at hsz ⊢
  refine Halts.succ ?_
  simp only [tableRows]
  have hfirst : ∀ p ∈ b!"|!", ∀ w, hasPrefix (trimSpace (l ++ [c] ++ q)) (p :: w) = false := by
    intro p hp w
    rw [Bool.eq_false_iff]
    intro h
    obtain ⟨t', ht'⟩ := hasPrefix_iff.mp h
    rw [List.append_assoc, List.singleton_append] at ht'
    exact head_of_spaces hl hcc hp _ ht'.symm
  have hrest : size ls.flatten < M := by
    refine lt_of_lt_of_le (size_lt.mpr ?_) hm
    have h1 := hfits.1; have h2 := hfits.2
    simp only [List.flatten_cons, lts_append, wt_append] at hsz h1 h2 ⊢
    have hc1 : wt [c] = 1 := by rw [wt_cons, hcm]; rfl
    omega
  have n1 := hfirst 0x7C (by decide)
  have n2 := hfirst 0x21 (by decide)
  refine Halts.ite (fun h => absurd h (by rw [n1]; decide)) fun _ => Halts.ite (fun h => absurd h (by rw [n2]; decide)) fun _ =>
    Halts.ite (fun h => absurd h (by rw [n1]; decide)) fun _ => Halts.ite (fun h => absurd h (by rw [n1]; decide)) fun _ =>
    Halts.ite (fun h => absurd h (by rw [n1]; decide)) fun _ => tableRows_halts hrec _ ls [] (Nat.le_refl _) hrest

theorem tables_of_body {k : Nat} (hrec : RecHalts rec M)
    (hbody : ∀ (lines : List Str), lines.length ≤ k → (∀ l ∈ lines, (0x0A : Byte) ∉ l) → size lines.flatten ≤ M →
      Halts (fun n m => tableBody (rec n) m lines) fun r => Fits (r.1.flatten ++ r.2.flatten) lines.flatten ∧ r.2 <:+ lines)
    (line : Str) (rest : List Str) (hk : rest.length ≤ k) (hline : TableLine line) (hnl : ∀ l ∈ line :: rest, (0x0A : Byte) ∉ l)
    (hm : size (line :: rest).flatten ≤ M) :
    Halts (fun n m => tokenizeTables (rec n) m line rest) fun r => Bare r.1 ∧ Fits r.2.flatten rest.flatten ∧ r.2 <:+ rest := by
  refine Halts.succ ?_
  simp only [tokenizeTables]
  refine Halts.bind (hbody rest hk (fun l hl => hnl l (by simp [hl])) ((flatten_drop_fits (line :: rest) 1).size_le.trans hm)) fun r hr => ?_
  obtain ⟨lines, after⟩ := r
  obtain ⟨hf, hs⟩ := hr
  simp only at hf hs
  have hf1 := hf.1; have hf2 := hf.2
  simp only [lts_append, wt_append] at hf1 hf2
  refine Halts.bind (tokenizeTable_halts hrec line lines hline (hnl line (by simp)) (le_trans (Fits.size_le ?_) hm)) fun token _ => ?_
  · constructor <;> simp only [List.flatten_cons, lts_append, wt_append] <;> omega
  · refine Halts.bind (Halts.getToken (by decide)) fun key hkey => ?_
    refine Halts.bind (Halts.setRawToken (P := fun _ => True) _ _ trivial) fun _ _ => Halts.pure ⟨hkey, ⟨?_, ?_⟩, hs⟩
    · simp only; omega
    · simp only; omega

theorem tableBody_halts (hrec : RecHalts rec M) (k : Nat) : ∀ (lines : List Str), lines.length ≤ k → (∀ l ∈ lines, (0x0A : Byte) ∉ l) →
    size lines.flatten ≤ M →
    Halts (fun n m => tableBody (rec n) m lines) fun r => Fits (r.1.flatten ++ r.2.flatten) lines.flatten ∧ r.2 <:+ lines := by
  induction k with
  | zero =>
    intro lines hk _ _
    rw [List.length_eq_zero_iff.mp (by omega : lines.length = 0)]
    refine Halts.succ ?_
    simp only [tableBody]
    exact Halts.pure ⟨.refl _, List.suffix_refl _⟩
  | succ k ih =>
    intro lines hk hnl hm
    refine Halts.succ ?_
    cases lines with
    | nil =>
      simp only [tableBody]
      exact Halts.pure ⟨.refl _, List.suffix_refl _⟩
    | cons line rest =>
      simp only [List.length_cons] at hk
      have hrest : size rest.flatten ≤ M := (flatten_drop_fits (line :: rest) 1).size_le.trans hm
      have hnl' : ∀ l ∈ rest, (0x0A : Byte) ∉ l := fun l hl => hnl l (by simp [hl])
      simp only [tableBody]
      refine Halts.ite (fun h => ?_) fun _ => Halts.ite (fun _ => ?_) fun _ => ?_
      · have hline : TableLine line := by
          rcases Bool.or_eq_true_iff.mp h with h | h
          · obtain ⟨t, ht⟩ := hasPrefix_iff.mp h
            exact ⟨0x7B, _, ht.symm, .inr rfl⟩
          · obtain ⟨t, ht⟩ := hasPrefix_iff.mp h
            exact ⟨0x3A, _, ht.symm, .inl rfl⟩
        refine Halts.bind (tables_of_body hrec ih line rest (by omega) hline hnl hm) fun r hr => ?_
        obtain ⟨key, after⟩ := r
        obtain ⟨hkey, hf, hs⟩ := hr
        simp only at hkey hf hs
        refine Halts.bind (ih after (by have := hs.length_le; omega) (fun l hl => hnl' l (hs.subset hl)) (hf.size_le.trans hrest)) fun r hr => ?_
        obtain ⟨ls, after'⟩ := r
        obtain ⟨hf', hs'⟩ := hr
        simp only at hf' hs'
        refine Halts.pure ⟨?_, hs'.trans (hs.trans (List.suffix_cons _ _))⟩
        have h1 := hf.1; have h2 := hf.2; have h3 := hf'.1; have h4 := hf'.2
        simp only [lts_append, wt_append] at h3 h4
        constructor <;> simp only [List.flatten_cons, lts_append, wt_append, hkey.1, hkey.2] <;> omega
      · refine Halts.pure ⟨?_, List.suffix_cons _ _⟩
        simp only [List.flatten_cons, List.flatten_nil, List.append_nil]
        exact .refl _
      · refine Halts.bind (ih rest (by omega) hnl' hrest) fun r hr => ?_
        obtain ⟨ls, after⟩ := r
        obtain ⟨hf, hs⟩ := hr
        simp only at hf hs
        refine Halts.pure ⟨?_, hs.trans (List.suffix_cons _ _)⟩
        simp only [List.flatten_cons, List.append_assoc]
        exact Fits.append (.refl _) hf

theorem tokenizeTables_halts (hrec : RecHalts rec M) (line : Str) (rest : List Str) (hline : TableLine line)
    (hnl : ∀ l ∈ line :: rest, (0x0A : Byte) ∉ l) (hm : size (line :: rest).flatten ≤ M) :
    Halts (fun n m => tokenizeTables (rec n) m line rest) fun r => Bare r.1 ∧ Fits r.2.flatten rest.flatten ∧ r.2 <:+ rest :=
  tables_of_body hrec (tableBody_halts hrec rest.length) line rest (Nat.le_refl _) hline hnl hm

theorem takeWhile_all' {p : Byte → Bool} {ls : Str} : ∀ l ∈ ls.takeWhile p, p l = true := by
  induction ls with
  | nil => intro l h; cases h
  | cons x ls ih =>
    intro l h
    rw [List.takeWhile_cons] at h
    split at h
    · rename_i hx
      rcases List.mem_cons.mp h with rfl | h
      · exact hx
      · exact ih l h
    · cases h

theorem matchTableStart_spec {line p : Str} (h : matchTableStart (trimSpace line) = some p) :
    TableLine line ∧ lts p ≤ lts line ∧ wt p < wt line := by
  unfold matchTableStart at h
  split at h
  · rename_i hp
    cases h
    obtain ⟨t, ht⟩ := hasPrefix_iff.mp hp
    have e : trimSpace line = (trimSpace line).takeWhile (fun c => decide (c = 0x3A)) ++ (b!"{|" ++ t) := by
      conv_lhs => rw [← List.takeWhile_append_dropWhile (p := fun c => decide (c = (0x3A : Byte))) (l := trimSpace line)]
      rw [ht]
    have hs := Fits.of_sublist (trimSpace_sublist line)
    have h1 := hs.1; have h2 := hs.2
    rw [e] at h1 h2
    simp only [lts_append, wt_append] at h1 h2
    have hb : wt b!"{|" = 1 := by decide
    refine ⟨?_, by omega, by omega⟩
    generalize hw : (trimSpace line).takeWhile (fun c => decide (c = 0x3A)) = w at e
    cases w with
    | nil => exact ⟨0x7B, _, e, .inr rfl⟩
    | cons c w =>
      refine ⟨c, _, e, .inl ?_⟩
      have : decide (c = (0x3A : Byte)) = true := by
        have hm : c ∈ (trimSpace line).takeWhile (fun c => decide (c = 0x3A)) := by rw [hw]; simp
        exact takeWhile_all' _ hm
      simpa using this
  · cases h

theorem tableLoop_halts (hrec : RecHalts rec M) (k : Nat) : ∀ (lines : List Str), lines.length ≤ k → (∀ l ∈ lines, (0x0A : Byte) ∉ l) →
    size lines.flatten ≤ M → Halts (fun n m => tableLoop (rec n) m lines) (LineStep lines) := by
  induction k with
  | zero =>
    intro lines hk _ _
    rw [List.length_eq_zero_iff.mp (by omega : lines.length = 0)]
    refine Halts.succ ?_
    simp only [tableLoop]
    exact Halts.pure (.inl rfl)
  | succ k ih =>
    intro lines hk hnl hm
    refine Halts.succ ?_
    cases lines with
    | nil => simp only [tableLoop]; exact Halts.pure (.inl rfl)
    | cons line rest =>
      simp only [List.length_cons] at hk
      have hrest : size rest.flatten ≤ M := (flatten_drop_fits (line :: rest) 1).size_le.trans hm
      have hnl' : ∀ l ∈ rest, (0x0A : Byte) ∉ l := fun l hl => hnl l (by simp [hl])
      simp only [tableLoop]
      cases hs : matchTableStart (trimSpace line) with
      | none => exact Halts.bind (ih rest (by omega) hnl' hrest) fun r hr => Halts.pure (LineStep.cons (.inl rfl) hr)
      | some p =>
        obtain ⟨hline, hp1, hp2⟩ := matchTableStart_spec hs
        refine Halts.bind (tokenizeTables_halts hrec line rest hline hnl hm) fun r hr => ?_
        obtain ⟨key, after⟩ := r
        obtain ⟨hkey, hf, hsuf⟩ := hr
        simp only at hkey hf hsuf
        refine Halts.bind (ih after (by have := hsuf.length_le; omega) (fun l hl => hnl' l (hsuf.subset hl)) (hf.size_le.trans hrest)) fun r hr => ?_
        refine Halts.pure (.inr ?_)
        have h1 := hr.size_le
        rw [size_le] at h1
        have h2 := hf.1; have h3 := hf.2
        rw [size_lt]
        simp only [List.flatten_cons, lts_append, wt_append, hkey.1, hkey.2]
        omega

theorem parseTables_halts (hrec : RecHalts rec M) (content : Str) (hm : size content ≤ M) :
    Halts (fun n m => parseTables (rec n) m content) (Step content) := by
  unfold parseTables
  exact Halts.bind (tableLoop_halts hrec _ _ (Nat.le_refl _) (fun l hl => not_mem_of_mem_split_singleton hl) (size_flatten_split hm))
    fun ls hls => Halts.pure hls.step

end Verif.Lemmas
