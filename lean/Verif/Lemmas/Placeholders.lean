import Verif.Lemmas.Strings
import Verif.Lemmas.Templates
import Verif.Model.EvaluateTemplates
import Verif.Spec.EvaluateTemplates

/-!
# Lemmas about placeholders of templates
-/

namespace Verif.Model
open Verif.Go Verif.Spec Verif.Lemmas
open scoped List

/-- The part of a placeholder without dollar signs. -/
def holeWord : Str := b!"TEMPLATE_PLACEHOLDER_"

theorem holeText_eq (key : Str) : holeText key = 0x24 :: 0x24 :: (holeWord ++ key ++ b!"$$") := rfl

theorem templatePlaceholder_eq (key : Str) : templatePlaceholder key = holeText key := rfl

theorem holedText_cons (p : HoledPiece) (ps : List HoledPiece) : holedText (p :: ps) = p.text ++ holedText ps := rfl

theorem holedText_append (a b : List HoledPiece) : holedText (a ++ b) = holedText a ++ holedText b := by
  simp [holedText]

theorem holedText_chars (s : Str) : holedText (s.map .char) = s := by
  induction s with
  | nil => rfl
  | cons c s ih => rw [List.map_cons, holedText_cons, ih]; rfl

/-- The characters do not spell a placeholder. -/
def CleanHoles (ps : List HoledPiece) : Prop := ¬ holeWord.map HoledPiece.char <:+: ps

theorem CleanHoles.suffix {a b : List HoledPiece} (h : CleanHoles b) (hs : a <:+ b) : CleanHoles a :=
  fun hi => h (hi.trans hs.isInfix)

/-- The keys of all placeholders have no dollar sign. -/
def KeysOk (ps : List HoledPiece) : Prop := ∀ k, .hole k ∈ ps → (0x24 : Byte) ∉ k

theorem KeysOk.suffix {a b : List HoledPiece} (h : KeysOk b) (hs : a <:+ b) : KeysOk a :=
  fun k hk => h k (hs.subset hk)

theorem chars_prefix {w : Str} (hw : (0x24 : Byte) ∉ w) : ∀ {ps : List HoledPiece}, w <+: holedText ps → w.map .char <+: ps := by
  induction w with
  | nil => intro ps _; exact List.nil_prefix
  | cons c w ih =>
    intro ps h
    simp only [List.mem_cons, not_or] at hw
    cases ps with
    | nil => exact absurd (List.prefix_nil.mp h) (by simp)
    | cons p ps =>
      cases p with
      | char d =>
        obtain ⟨hc, h'⟩ := List.cons_prefix_cons.mp (show c :: w <+: d :: holedText ps from h)
        rw [hc]
        exact List.cons_prefix_cons.mpr ⟨rfl, ih hw.2 h'⟩
      | hole k =>
        have := (List.cons_prefix_cons.mp (show c :: w <+: 0x24 :: _ from h)).1
        exact absurd this.symm hw.1

theorem not_word {ps : List HoledPiece} (h : CleanHoles ps) : ¬ holeWord <+: holedText ps :=
  fun hp => h (chars_prefix (by decide) hp).isInfix

theorem not_dollar_word {ps : List HoledPiece} (h : CleanHoles ps) : ¬ 0x24 :: holeWord <+: holedText ps := by
  intro hp
  cases ps with
  | nil => exact absurd (List.prefix_nil.mp hp) (by simp)
  | cons p ps =>
    cases p with
    | char d =>
      exact not_word (h.suffix (List.suffix_cons _ _)) (List.cons_prefix_cons.mp (show 0x24 :: holeWord <+: d :: holedText ps from hp)).2
    | hole k =>
      have h2 := (List.cons_prefix_cons.mp (show 0x24 :: holeWord <+: 0x24 :: 0x24 :: _ from hp)).2
      exact absurd (List.cons_prefix_cons.mp (show (0x54 : Byte) :: _ <+: (0x24 : Byte) :: _ from h2)).1 (by decide)

theorem not_start_char {ps : List HoledPiece} {c : Byte} (h : CleanHoles (.char c :: ps)) :
    ¬ 0x24 :: 0x24 :: holeWord <+: c :: holedText ps := by
  intro hp
  exact not_dollar_word (h.suffix (List.suffix_cons _ _)) (List.cons_prefix_cons.mp hp).2

theorem key_eq {k k' : Str} (h : (0x24 : Byte) ∉ k) (h' : (0x24 : Byte) ∉ k') {r r' : Str} (he : k ++ 0x24 :: r <+: k' ++ 0x24 :: r') : k = k' := by
  induction k generalizing k' with
  | nil =>
    cases k' with
    | nil => rfl
    | cons d k' =>
      have := (List.cons_prefix_cons.mp (show 0x24 :: r <+: d :: _ from he)).1
      simp [this] at h'
  | cons c k ih =>
    cases k' with
    | nil =>
      have := (List.cons_prefix_cons.mp (show c :: _ <+: 0x24 :: r' from he)).1
      simp [this] at h
    | cons d k' =>
      obtain ⟨hc, he'⟩ := List.cons_prefix_cons.mp (show c :: (k ++ 0x24 :: r) <+: d :: (k' ++ 0x24 :: r') from he)
      simp only [List.mem_cons, not_or] at h h'
      rw [hc, ih h.2 h'.2 he']

theorem hole_prefix {k k' : Str} (h : (0x24 : Byte) ∉ k) (h' : (0x24 : Byte) ∉ k') {r : Str} (he : holeText k <+: holeText k' ++ r) : k = k' := by
  have e1 : holeText k = (0x24 :: 0x24 :: holeWord) ++ (k ++ 0x24 :: [0x24]) := by simp [holeText_eq]
  have e2 : holeText k' ++ r = (0x24 :: 0x24 :: holeWord) ++ (k' ++ 0x24 :: (0x24 :: r)) := by simp [holeText_eq]
  rw [e1, e2, List.prefix_append_right_inj] at he
  exact key_eq h h' he

theorem holedText_inj : ∀ {ps qs : List HoledPiece}, CleanHoles ps → CleanHoles qs → KeysOk ps → KeysOk qs →
    holedText ps = holedText qs → ps = qs := by
  intro ps
  induction ps with
  | nil =>
    intro qs _ _ _ _ h
    cases qs with
    | nil => rfl
    | cons q qs => cases q <;> simp [holedText, HoledPiece.text, holeText] at h
  | cons p ps ih =>
    intro qs h1 h2 h3 h4 h
    have key : ∀ {c : Byte} {k : Str} {a b : List HoledPiece}, CleanHoles (.char c :: a) → ¬ holedText (.char c :: a) = holedText (.hole k :: b) := by
      intro c k a b hc he
      refine not_start_char hc ?_
      rw [show c :: holedText a = holedText (.char c :: a) from rfl, he]
      exact ⟨k ++ b!"$$" ++ holedText b, by simp [holedText_cons, HoledPiece.text, holeText_eq]⟩
    cases qs with
    | nil => cases p <;> simp [holedText, HoledPiece.text, holeText] at h
    | cons q qs =>
      have ih' := ih (qs := qs) (h1.suffix (List.suffix_cons _ _)) (h2.suffix (List.suffix_cons _ _)) (h3.suffix (List.suffix_cons _ _))
        (h4.suffix (List.suffix_cons _ _))
      cases p with
      | char c =>
        cases q with
        | char d =>
          have h' : c :: holedText ps = d :: holedText qs := h
          simp only [List.cons.injEq] at h'
          rw [h'.1, ih' h'.2]
        | hole k => exact absurd h (key h1)
      | hole k =>
        cases q with
        | char d => exact absurd h.symm (key h2)
        | hole k' =>
          have h' : holeText k ++ holedText ps = holeText k' ++ holedText qs := h
          have hk : k = k' := hole_prefix (r := holedText qs) (h3 k List.mem_cons_self) (h4 k' List.mem_cons_self) (by
            rw [← h']; exact List.prefix_append _ _)
          subst hk
          rw [ih' (List.append_cancel_left h')]

/-! ### Replacement of placeholders -/

/-- One placeholder is replaced. -/
def fill (k : Str) (qs : List HoledPiece) : HoledPiece → List HoledPiece
  | .char c => [.char c]
  | .hole k' => if k' = k then qs else [.hole k']

theorem replaceAll_noDollar (k new : Str) (u R : Str) (hu : (0x24 : Byte) ∉ u) :
    replaceAll (u ++ R) (holeText k) new = u ++ replaceAll R (holeText k) new := by
  induction u with
  | nil => rfl
  | cons c u ih =>
    simp only [List.mem_cons, not_or] at hu
    rw [List.cons_append, replaceAll_cons_of_not_prefix, ih hu.2, List.cons_append]
    intro h
    exact hu.1 (List.cons_prefix_cons.mp (show 0x24 :: _ <+: c :: _ from h)).1

theorem start_of_hole {k s : Str} (h : holeText k <+: s) : 0x24 :: 0x24 :: holeWord <+: s := by
  refine List.IsPrefix.trans ?_ h
  rw [holeText_eq, List.append_assoc]
  exact List.cons_prefix_cons.mpr ⟨rfl, List.cons_prefix_cons.mpr ⟨rfl, List.prefix_append _ _⟩⟩

theorem replaceAll_holes {k : Str} (hk : (0x24 : Byte) ∉ k) (qs : List HoledPiece) : ∀ {ps : List HoledPiece}, CleanHoles ps → KeysOk ps →
    replaceAll (holedText ps) (holeText k) (holedText qs) = holedText (ps.flatMap (fill k qs)) := by
  intro ps
  induction ps with
  | nil => intro _ _; rfl
  | cons p ps ih =>
    intro h1 h2
    have hs := h1.suffix (List.suffix_cons _ _)
    have ih := ih hs (h2.suffix (List.suffix_cons _ _))
    rw [List.flatMap_cons, holedText_append, ← ih]
    cases p with
    | char c =>
      rw [show holedText (.char c :: ps) = c :: holedText ps from rfl, replaceAll_cons_of_not_prefix (fun h => not_start_char h1 (start_of_hole h))]
      rfl
    | hole k' =>
      rw [show holedText (.hole k' :: ps) = holeText k' ++ holedText ps from rfl, fill]
      split
      · rename_i he
        subst he
        exact replaceAll_of_prefix (by simp [holeText_eq])
      · rename_i hne
        have hk' := h2 k' List.mem_cons_self
        have e : holeText k' ++ holedText ps = 0x24 :: 0x24 :: ((holeWord ++ k') ++ (0x24 :: 0x24 :: holedText ps)) := by
          simp [holeText_eq]
        have hw : (0x24 : Byte) ∉ holeWord ++ k' := by
          rw [List.mem_append, not_or]
          exact ⟨by decide, hk'⟩
        rw [e, replaceAll_cons_of_not_prefix, replaceAll_cons_of_not_prefix, replaceAll_noDollar k _ _ _ hw,
          replaceAll_cons_of_not_prefix, replaceAll_cons_of_not_prefix]
        · simp [holedText, HoledPiece.text, holeText_eq]
        · intro h
          exact not_dollar_word hs (List.cons_prefix_cons.mp (start_of_hole h)).2
        · intro h
          exact not_word hs (List.cons_prefix_cons.mp (List.cons_prefix_cons.mp (start_of_hole h)).2).2
        · intro h
          have h2 := (List.cons_prefix_cons.mp (start_of_hole h)).2
          exact absurd (List.cons_prefix_cons.mp (show (0x24 : Byte) :: _ <+: (0x54 : Byte) :: _ from h2)).1 (by decide)
        · intro h
          rw [← e] at h
          exact hne (hole_prefix hk hk' h).symm

theorem mem_of_hole_infix {ps : List HoledPiece} (h1 : CleanHoles ps) (hi : 0x24 :: 0x24 :: holeWord <:+: holedText ps) :
    ∃ k, .hole k ∈ ps := by
  by_contra hn
  have : ∃ s : Str, ps = s.map .char := by
    clear h1 hi
    induction ps with
    | nil => exact ⟨[], rfl⟩
    | cons p ps ih =>
      obtain ⟨s, hs⟩ := ih (fun ⟨k, hk⟩ => hn ⟨k, List.mem_cons_of_mem _ hk⟩)
      cases p with
      | char c => exact ⟨c :: s, by rw [hs]; rfl⟩
      | hole k => exact absurd ⟨k, List.mem_cons_self⟩ hn
  obtain ⟨s, rfl⟩ := this
  rw [holedText_chars] at hi
  apply h1
  have : holeWord <:+: s := List.IsInfix.trans ⟨b!"$$", [], by simp⟩ hi
  obtain ⟨a, b, rfl⟩ := this
  exact ⟨a.map .char, b.map .char, by simp⟩

theorem contains_placeholder {ps : List HoledPiece} (h1 : CleanHoles ps) :
    contains (holedText ps) templatePlaceholderPrefix = true ↔ ∃ k, .hole k ∈ ps := by
  rw [contains_iff]
  constructor
  · intro h
    exact mem_of_hole_infix h1 h
  · rintro ⟨k, hk⟩
    obtain ⟨a, b, rfl⟩ := List.append_of_mem hk
    exact ⟨holedText a, k ++ b!"$$" ++ holedText b, by
      simp [holedText_append, holedText_cons, HoledPiece.text, holeText_eq, templatePlaceholderPrefix, holeWord]⟩

/-! ### The text without placeholders -/

/-- `Resolved` with the number of replacements. -/
inductive ResolvedN (answers : List (Str × Str)) : List HoledPiece → Str → Nat → Prop where
  | nil : ResolvedN answers [] [] 0
  | char {ps : List HoledPiece} {x : Str} {n : Nat} (c : Byte) (h : ResolvedN answers ps x n) : ResolvedN answers (.char c :: ps) (c :: x) n
  | hole {ps inner : List HoledPiece} {x y : Str} {n m : Nat} (key : Str) (ha : (key, holedText inner) ∈ answers)
      (hi : ResolvedN answers inner y m) (h : ResolvedN answers ps x n) : ResolvedN answers (.hole key :: ps) (y ++ x) (m + n + 1)

theorem Resolved.count {answers : List (Str × Str)} {ps : List HoledPiece} {x : Str} (h : Resolved answers ps x) :
    ∃ n, ResolvedN answers ps x n := by
  induction h with
  | nil => exact ⟨_, .nil⟩
  | char c _ ih => obtain ⟨n, ih⟩ := ih; exact ⟨_, .char c ih⟩
  | hole key ha _ _ ih1 ih2 => obtain ⟨n, ih1⟩ := ih1; obtain ⟨m, ih2⟩ := ih2; exact ⟨_, .hole key ha ih1 ih2⟩

theorem ResolvedN.append {answers : List (Str × Str)} {a b : List HoledPiece} {x y : Str} {n m : Nat} (h : ResolvedN answers a x n)
    (h' : ResolvedN answers b y m) : ResolvedN answers (a ++ b) (x ++ y) (n + m) := by
  induction h with
  | nil => simpa using h'
  | char c _ ih => exact .char c ih
  | @hole ps inner x y n1 m1 key ha hi _ _ ih =>
    rw [List.append_assoc]
    have := ResolvedN.hole key ha hi ih
    have e : m1 + n1 + 1 + m = m1 + (n1 + m) + 1 := by omega
    rw [e]
    exact this

theorem ResolvedN.clean {answers : List (Str × Str)} {ps : List HoledPiece} {x : Str} {n : Nat} (h : ResolvedN answers ps x n)
    (hx : ¬ holeWord <:+: x) : CleanHoles ps := by
  rintro ⟨a, b, rfl⟩
  apply hx
  clear hx
  rw [List.append_assoc] at h
  generalize hq : holeWord.map HoledPiece.char ++ b = q at h
  have split : ∀ (a : List HoledPiece) {x : Str} {n : Nat}, ResolvedN answers (a ++ q) x n → ∃ x1 x2 m, x = x1 ++ x2 ∧ ResolvedN answers q x2 m := by
    intro a
    induction a with
    | nil => intro x n h; exact ⟨[], x, n, rfl, h⟩
    | cons p a ih =>
      intro x n h
      cases h with
      | char c h =>
        obtain ⟨x1, x2, m, rfl, h'⟩ := ih h
        exact ⟨c :: x1, x2, m, rfl, h'⟩
      | hole key _ _ h =>
        obtain ⟨x1, x2, m, rfl, h'⟩ := ih h
        exact ⟨_ ++ x1, x2, m, (List.append_assoc _ _ _).symm, h'⟩
  obtain ⟨x1, x2, m, rfl, h2⟩ := split a h
  subst hq
  have chars : ∀ (w : Str) {x : Str} {m : Nat}, ResolvedN answers (w.map HoledPiece.char ++ b) x m → w <+: x := by
    intro w
    induction w with
    | nil => intro x m _; exact List.nil_prefix
    | cons c w ih =>
      intro x m h
      cases h with
      | char c h => exact List.cons_prefix_cons.mpr ⟨rfl, ih h⟩
  exact (chars _ h2).isInfix.trans (List.suffix_append _ _).isInfix

theorem ResolvedN.keys {answers : List (Str × Str)} (ha : ∀ e ∈ answers, (0x24 : Byte) ∉ e.1) {ps : List HoledPiece} {x : Str} {n : Nat}
    (h : ResolvedN answers ps x n) : KeysOk ps := by
  induction h with
  | nil => intro k hk; cases hk
  | char c _ ih =>
    intro k hk
    rcases List.mem_cons.mp hk with h | h
    · cases h
    · exact ih k h
  | hole key hm _ _ _ ih =>
    intro k hk
    rcases List.mem_cons.mp hk with h | h
    · cases h; exact ha _ hm
    · exact ih k h

theorem eq_of_key_mem {answers : List (Str × Str)} (hn : (answers.map Prod.fst).Nodup) {k t t' : Str} (h : (k, t) ∈ answers) (h' : (k, t') ∈ answers) :
    t = t' := by
  induction answers with
  | nil => cases h
  | cons e l ih =>
    rw [List.map_cons, List.nodup_cons] at hn
    rcases List.mem_cons.mp h with rfl | h1 <;> rcases List.mem_cons.mp h' with h2 | h2
    · cases h2; rfl
    · exact absurd (List.mem_map_of_mem (f := Prod.fst) h2) hn.1
    · subst h2; exact absurd (List.mem_map_of_mem (f := Prod.fst) h1) hn.1
    · exact ih hn.2 h1 h2

theorem fill_absent {k : Str} {qs ps : List HoledPiece} (h : .hole k ∉ ps) : ps.flatMap (Model.fill k qs) = ps := by
  induction ps with
  | nil => rfl
  | cons p ps ih =>
    simp only [List.mem_cons, not_or] at h
    rw [List.flatMap_cons, ih h.2]
    cases p with
    | char c => rfl
    | hole k' =>
      rw [Model.fill, if_neg (by rintro rfl; exact h.1 rfl)]
      rfl

theorem ResolvedN.no_hole {answers : List (Str × Str)} {ps : List HoledPiece} {x : Str} (h : ResolvedN answers ps x 0) : ¬ ∃ k, .hole k ∈ ps := by
  generalize hz : 0 = z at h
  induction h with
  | nil => simp
  | char c _ ih =>
    rintro ⟨k, hk⟩
    exact ih hz ⟨k, by simpa using hk⟩
  | hole => omega

theorem ResolvedN.text {answers : List (Str × Str)} {ps : List HoledPiece} {x : Str} {n : Nat} (h : ResolvedN answers ps x n)
    (hno : ¬ ∃ k, .hole k ∈ ps) : holedText ps = x := by
  induction h with
  | nil => rfl
  | char c h ih =>
    rw [show holedText (HoledPiece.char c :: _) = c :: holedText _ from rfl, ih (fun ⟨k, hk⟩ => hno ⟨k, List.mem_cons_of_mem _ hk⟩)]
  | hole key => exact absurd ⟨key, List.mem_cons_self⟩ hno

section
variable {answers : List (Str × Str)} (hn : (answers.map Prod.fst).Nodup) (hd : ∀ e ∈ answers, (0x24 : Byte) ∉ e.1)
include hn hd

/-- Replacing a placeholder does not change the text without placeholders. -/
theorem ResolvedN.fill {k : Str} {qs : List HoledPiece} (hq : (k, holedText qs) ∈ answers) (hqc : CleanHoles qs) (hqk : KeysOk qs)
    {ps : List HoledPiece} {x : Str} {n : Nat} (h : ResolvedN answers ps x n) (hx : ¬ holeWord <:+: x) :
    ∃ n', ResolvedN answers (ps.flatMap (Model.fill k qs)) x n' ∧ n' ≤ n ∧ (.hole k ∈ ps → n' < n) := by
  induction h with
  | nil => exact ⟨0, .nil, Nat.le_refl _, by simp⟩
  | char c h ih =>
    obtain ⟨n', h1, h2, h3⟩ := ih (fun h => hx (h.trans (List.suffix_cons _ _).isInfix))
    refine ⟨n', .char c h1, h2, fun hm => h3 ?_⟩
    rcases List.mem_cons.mp hm with h | h
    · cases h
    · exact h
  | @hole ps inner x y n m key ha hi h _ ih =>
    obtain ⟨n', h1, h2, h3⟩ := ih (fun h => hx (h.trans (List.suffix_append _ _).isInfix))
    rw [List.flatMap_cons, Model.fill]
    by_cases hk : key = k
    · subst hk
      rw [if_pos rfl]
      have he : inner = qs := holedText_inj (hi.clean (fun h => hx (h.trans (List.prefix_append _ _).isInfix))) hqc (hi.keys hd) hqk
        (eq_of_key_mem hn ha hq)
      subst he
      exact ⟨m + n', hi.append h1, by omega, fun _ => by omega⟩
    · rw [if_neg hk]
      refine ⟨m + n' + 1, .hole key ha hi h1, by omega, fun hm => ?_⟩
      rcases List.mem_cons.mp hm with h | h
      · cases h; exact absurd rfl hk
      · have := h3 h; omega

omit hn in
theorem ResolvedN.entry {ps : List HoledPiece} {x : Str} {n : Nat} (h : ResolvedN answers ps x n) (hx : ¬ holeWord <:+: x) {k : Str}
    (hk : .hole k ∈ ps) : ∃ qs, (k, holedText qs) ∈ answers ∧ CleanHoles qs ∧ KeysOk qs := by
  induction h with
  | nil => cases hk
  | char c h ih =>
    rcases List.mem_cons.mp hk with h' | h'
    · cases h'
    · exact ih (fun h => hx (h.trans (List.suffix_cons _ _).isInfix)) h'
  | hole key ha hi h _ ih =>
    rcases List.mem_cons.mp hk with h' | h'
    · cases h'
      exact ⟨_, ha, hi.clean (fun h => hx (h.trans (List.prefix_append _ _).isInfix)), hi.keys hd⟩
    · exact ih (fun h => hx (h.trans (List.suffix_append _ _).isInfix)) h'

/-- One loop over entries of the map. -/
theorem replacePlaceholders_ok {x : Str} (hx : ¬ holeWord <:+: x) : ∀ (entries : List (Str × Str)), (∀ e ∈ entries, e ∈ answers) →
    ∀ {ps : List HoledPiece} {n : Nat}, ResolvedN answers ps x n →
    ∃ ps' n', replacePlaceholders (holedText ps) entries = holedText ps' ∧ ResolvedN answers ps' x n' ∧ n' ≤ n ∧
      ((∃ e ∈ entries, .hole e.1 ∈ ps) → n' < n) := by
  intro entries
  induction entries with
  | nil => intro _ ps n h; exact ⟨ps, n, rfl, h, Nat.le_refl _, by simp⟩
  | cons e entries ih =>
    intro he ps n h
    have hea := he e List.mem_cons_self
    have hstep : (if contains (holedText ps) (templatePlaceholder e.1) then replaceAll (holedText ps) (templatePlaceholder e.1) e.2 else holedText ps) =
        replaceAll (holedText ps) (holeText e.1) e.2 := by
      split
      · rfl
      · rename_i hc
        rw [replaceAll_of_not_contains]
        simpa [templatePlaceholder_eq] using hc
    have hrun : replacePlaceholders (holedText ps) (e :: entries) = replacePlaceholders (replaceAll (holedText ps) (holeText e.1) e.2) entries := by
      unfold replacePlaceholders
      rw [List.foldl_cons, hstep]
    rw [hrun]
    have hc := h.clean hx
    have hkeys := h.keys hd
    by_cases hm : .hole e.1 ∈ ps
    · obtain ⟨qs, hq1, hq2, hq3⟩ := h.entry hd hx hm
      have heq : e.2 = holedText qs := eq_of_key_mem hn (k := e.1) hea hq1
      obtain ⟨n', h1, h2, h3⟩ := h.fill hn hd hq1 hq2 hq3 hx
      rw [heq, replaceAll_holes (hd e hea) qs hc hkeys]
      obtain ⟨ps', n'', h4, h5, h6, _⟩ := ih (fun e he' => he e (List.mem_cons_of_mem _ he')) h1
      have := h3 hm
      exact ⟨ps', n'', h4, h5, by omega, fun _ => by omega⟩
    · have hnot : replaceAll (holedText ps) (holeText e.1) e.2 = holedText ps := by
        have hqs : replaceAll (holedText ps) (holeText e.1) (holedText (e.2.map .char)) = holedText ps := by
          rw [replaceAll_holes (hd e hea) _ hc hkeys, fill_absent hm]
        rwa [holedText_chars] at hqs
      rw [hnot]
      obtain ⟨ps', n'', h4, h5, h6, h7⟩ := ih (fun e he' => he e (List.mem_cons_of_mem _ he')) h
      refine ⟨ps', n'', h4, h5, h6, ?_⟩
      rintro ⟨e', he', hm'⟩
      rcases List.mem_cons.mp he' with rfl | he'
      · exact absurd hm' hm
      · exact h7 ⟨e', he', hm'⟩

/-- The outer loop ends with the text without placeholders. -/
theorem resolvePlaceholders_ok (iterate : Nat → List (Str × Str) → List (Str × Str)) (hit : ∀ n m, (iterate n m).Perm m)
    {x : Str} (hx : ¬ holeWord <:+: x) : ∀ (n : Nat) {ps : List HoledPiece} {m : Nat}, m ≤ n → ResolvedN answers ps x m →
    ∀ fuel pass, n < fuel → resolvePlaceholders iterate answers fuel pass (holedText ps) = some x := by
  intro n
  induction n with
  | zero =>
    intro ps m hm h fuel pass hf
    obtain ⟨f, rfl⟩ := Nat.exists_eq_add_of_le' hf
    have : m = 0 := by omega
    subst this
    rw [resolvePlaceholders, if_neg (fun hc => h.no_hole ((contains_placeholder (h.clean hx)).mp hc)), h.text h.no_hole]
  | succ n ih =>
    intro ps m hm h fuel pass hf
    obtain ⟨f, rfl⟩ := Nat.exists_eq_add_of_le' (by omega : 1 ≤ fuel)
    have hc := h.clean hx
    rw [resolvePlaceholders]
    split
    · rename_i hcon
      obtain ⟨k, hk⟩ := (contains_placeholder hc).mp hcon
      obtain ⟨qs, hq, _, _⟩ := h.entry hd hx hk
      have hperm := hit pass answers
      obtain ⟨ps', n', h1, h2, h3, h4⟩ := replacePlaceholders_ok hn hd hx (iterate pass answers) (fun e he => hperm.mem_iff.mp he) h
      rw [h1]
      have := h4 ⟨_, hperm.mem_iff.mpr hq, hk⟩
      exact ih (by omega) h2 f (pass + 1) (by omega)
    · rename_i hcon
      have hno : ¬ ∃ k, .hole k ∈ ps := fun hk => hcon ((contains_placeholder hc).mpr hk)
      rw [h.text hno]

end

end Verif.Model
