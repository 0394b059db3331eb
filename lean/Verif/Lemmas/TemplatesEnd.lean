import Verif.Lemmas.HaltArticle
import Verif.Lemmas.PlaceholderLoop
import Verif.Lemmas.WholeSteps

/-!
# The evaluation of templates ends also for texts with braces that are no templates
-/

namespace Verif.Lemmas
open Verif.Go Verif.Model Verif.Spec
open scoped List

/-- A brace. -/
def brace (c : Byte) : Prop := c = 0x7B ∨ c = 0x7D

/-- The two texts meet at a brace or at an end. -/
def MeetAtBrace (a b : Str) : Prop :=
  a = [] ∨ b = [] ∨ (∃ c, a.getLast? = some c ∧ brace c) ∨ (∃ c, b.head? = some c ∧ brace c)

/-- The closing token is where the search finds it. -/
theorem closeLoop_here {o c : Str} (hc : c ≠ []) (t : Str) : ∀ {skip i k j : Nat}, closeLoop false o c t skip i k = some j →
    i ≤ j ∧ c <+: t.drop (j - i) := by
  induction t with
  | nil => intro skip i k j h; rw [closeLoop] at h; cases h
  | cons x t ih =>
    intro skip i k j h
    have next : ∀ {skip k}, closeLoop false o c t skip (i + 1) k = some j → i ≤ j ∧ c <+: (x :: t).drop (j - i) := by
      intro skip k h
      obtain ⟨h1, h2⟩ := ih h
      refine ⟨by omega, ?_⟩
      rw [show j - i = (j - (i + 1)) + 1 by omega, List.drop_succ_cons]
      exact h2
    cases skip with
    | succ skip => rw [closeLoop] at h; exact next h
    | zero =>
      rw [closeLoop] at h
      split at h
      · exact next h
      · split at h
        · rename_i hs
          split at h
          · cases h
            refine ⟨Nat.le_refl _, ?_⟩
            rw [Nat.sub_self, List.drop_zero]
            simp only [sameToken, Bool.false_eq_true, if_false, cursorText] at hs
            rw [beq_iff_eq] at hs
            split at hs
            · rw [← hs]; exact List.take_prefix _ _
            · exact absurd hs.symm hc
          · exact next h
        · exact next h

theorem findClose_here {content o c : Str} {i j : Nat} (hc : c ≠ []) (h : findClose content i o c = some j) : c <+: content.drop j := by
  obtain ⟨h1, h2⟩ := closeLoop_here hc _ h
  rw [List.drop_drop, show i + (j - i) = j by omega] at h2
  exact h2

/-! ### Cutting texts with placeholders -/

/-- No placeholder has a brace. -/
def NoBraces (ps : List HoledPiece) : Prop := ∀ k, .hole k ∈ ps → ∀ c ∈ holeText k, ¬ brace c

theorem holed_cut {ps : List HoledPiece} (hn : NoBraces ps) : ∀ {a b : Str}, holedText ps = a ++ b → MeetAtBrace a b →
    ∃ p q, ps = p ++ q ∧ a = holedText p ∧ b = holedText q := by
  induction ps with
  | nil =>
    intro a b h _
    obtain ⟨rfl, rfl⟩ := List.append_eq_nil_iff.mp h.symm
    exact ⟨[], [], rfl, rfl, rfl⟩
  | cons p ps ih =>
    intro a b h hs
    rw [holedText_cons] at h
    rcases List.append_eq_append_iff.mp h with ⟨a', rfl, h2⟩ | ⟨x, h1, h2⟩
    · obtain ⟨p', q, rfl, rfl, rfl⟩ := ih (fun k hk => hn k (List.mem_cons_of_mem _ hk)) h2 (by
        rcases hs with hs | hs | ⟨c, hc, hb⟩ | hs
        · exact .inl (List.append_eq_nil_iff.mp hs).2
        · exact .inr (.inl hs)
        · cases a' with
          | nil => exact .inl rfl
          | cons y a' => exact .inr (.inr (.inl ⟨c, by rwa [List.getLast?_append_of_ne_nil _ (by simp)] at hc, hb⟩))
        · exact .inr (.inr (.inr hs)))
      exact ⟨p :: p', q, rfl, rfl, rfl⟩
    · by_cases ha : a = []
      · subst ha
        rw [List.nil_append] at h1
        exact ⟨[], p :: ps, rfl, rfl, by rw [h2, ← h1]; rfl⟩
      by_cases hx : x = []
      · subst hx
        rw [List.append_nil] at h1
        rw [List.nil_append] at h2
        exact ⟨[p], ps, rfl, by rw [← h1, holedText_cons]; simp [holedText], h2⟩
      exfalso
      cases p with
      | char c =>
        have : [c] = a ++ x := h1
        have hl := congrArg List.length this
        have := List.length_pos_iff.mpr ha
        have := List.length_pos_iff.mpr hx
        simp at hl
        omega
      | hole k =>
        have hk := hn k List.mem_cons_self
        have h1 : holeText k = a ++ x := h1
        rw [h1] at hk
        rcases hs with hs | hs | ⟨y, hy, hb⟩ | ⟨y, hy, hb⟩
        · exact ha hs
        · rw [h2] at hs; exact hx (List.append_eq_nil_iff.mp hs).1
        · exact hk y (List.mem_append_left _ (List.mem_of_getLast? hy)) hb
        · cases x with
          | nil => exact hx rfl
          | cons z x =>
            rw [h2, List.cons_append, List.head?_cons, Option.some.injEq] at hy
            subst hy
            exact hk z (by simp) hb

theorem CleanHoles.infix {a b : List HoledPiece} (h : CleanHoles b) (hs : a <:+: b) : CleanHoles a := fun hi => h (hi.trans hs)

theorem CleanHoles.hole {a b : List HoledPiece} {k : Str} (ha : CleanHoles a) (hb : CleanHoles b) : CleanHoles (a ++ .hole k :: b) := by
  rintro ⟨x, y, h⟩
  rw [List.append_assoc] at h
  have hin : ∀ w : Str, HoledPiece.hole k ∉ w.map HoledPiece.char := by intro w; simp
  rcases List.append_eq_append_iff.mp h with ⟨a', rfl, h2⟩ | ⟨x', rfl, h2⟩
  · rcases List.append_eq_append_iff.mp h2 with ⟨a'', rfl, h3⟩ | ⟨x'', h3, h4⟩
    · exact ha ⟨x, a'', by simp⟩
    · cases x'' with
      | nil =>
        rw [List.append_nil] at h3
        exact ha ⟨x, [], by rw [h3]; simp⟩
      | cons z x'' =>
        injection h4 with h5 h6
        exact hin holeWord (by rw [h3, ← h5]; simp)
  · cases x' with
    | nil =>
      cases hw : holeWord.map HoledPiece.char with
      | nil => cases hw
      | cons z w =>
        rw [hw, List.nil_append, List.cons_append] at h2
        injection h2 with h5 h6
        exact hin holeWord (by rw [hw, h5]; simp)
    | cons z x' =>
      injection h2 with h5 h6
      exact hb ⟨x', y, by rw [h6]; simp⟩

/-- A placeholder in the text is one of its pieces. -/
theorem hole_of_infix {k : Str} (hk : (0x24 : Byte) ∉ k) : ∀ {ps : List HoledPiece}, CleanHoles ps → KeysOk ps →
    holeText k <:+: holedText ps → .hole k ∈ ps := by
  intro ps
  induction ps with
  | nil =>
    intro _ _ h
    have := h.length_le
    simp [holedText, holeText_eq] at this
  | cons p ps ih =>
    intro h1 h2 h
    have hs := h1.suffix (List.suffix_cons _ _)
    have ih := ih hs (h2.suffix (List.suffix_cons _ _))
    cases p with
    | char c =>
      rw [show holedText (.char c :: ps) = c :: holedText ps from rfl, List.infix_cons_iff] at h
      rcases h with h | h
      · exact absurd (start_of_hole h) (not_start_char h1)
      · exact List.mem_cons_of_mem _ (ih h)
    | hole k' =>
      by_cases he : k' = k
      · rw [he]; exact List.mem_cons_self
      · refine List.mem_cons_of_mem _ (ih ?_)
        have hk' := h2 k' List.mem_cons_self
        have e : holedText (.hole k' :: ps) = 0x24 :: 0x24 :: ((holeWord ++ k') ++ (0x24 :: 0x24 :: holedText ps)) := by
          simp [holedText_cons, HoledPiece.text, holeText_eq]
        have hw : (0x24 : Byte) ∉ holeWord ++ k' := by
          rw [List.mem_append, not_or]
          exact ⟨by decide, hk'⟩
        have skip : ∀ (u R : Str), (0x24 : Byte) ∉ u → holeText k <:+: u ++ R → holeText k <:+: R := by
          intro u R hu
          induction u with
          | nil => exact fun h => h
          | cons c u ihu =>
            intro h
            simp only [List.mem_cons, not_or] at hu
            rw [List.cons_append, List.infix_cons_iff] at h
            rcases h with h | h
            · exact absurd (List.cons_prefix_cons.mp (show 0x24 :: _ <+: c :: _ from h)).1 hu.1
            · exact ihu hu.2 h
        have hp : ¬ holeText k <+: holedText (.hole k' :: ps) := fun h => he (hole_prefix hk hk' h).symm
        rw [e] at h hp
        rcases List.infix_cons_iff.mp h with h | h
        · exact absurd h hp
        rcases List.infix_cons_iff.mp h with h | h
        · have h2 := (List.cons_prefix_cons.mp (start_of_hole h)).2
          exact absurd (List.cons_prefix_cons.mp (show (0x24 : Byte) :: _ <+: (0x54 : Byte) :: _ from h2)).1 (by decide)
        have h := skip _ _ hw h
        rcases List.infix_cons_iff.mp h with h | h
        · exact absurd (List.cons_prefix_cons.mp (List.cons_prefix_cons.mp (start_of_hole h)).2).2 (not_word hs)
        rcases List.infix_cons_iff.mp h with h | h
        · exact absurd (List.cons_prefix_cons.mp (start_of_hole h)).2 (not_dollar_word hs)
        exact h

/-! ### The search for templates -/

/-- There is an answer for the key. -/
def HasKey (m : List (Str × Str)) (k : Str) : Prop := ∃ a, (k, a) ∈ m

/-- The text consists of characters and placeholders for which there are answers. -/
def HolesIn (m : List (Str × Str)) (content : Str) : Prop :=
  ∃ ps, content = holedText ps ∧ CleanHoles ps ∧ ∀ k, .hole k ∈ ps → HasKey m k

theorem HolesIn.mono {m m' : List (Str × Str)} {c : Str} (h : HolesIn m c) (hm : ∀ k, HasKey m k → HasKey m' k) : HolesIn m' c := by
  obtain ⟨ps, h1, h2, h3⟩ := h
  exact ⟨ps, h1, h2, fun k hk => hm k (h3 k hk)⟩

/-- The answers belong to templates that have been sent, and placeholders in answers only lead to other answers. -/
structure Answers (env : TemplateEnv) (st : TemplateState) : Prop where
  nodup : (st.results.map Prod.fst).Nodup
  sent : ∀ e ∈ st.results, ∃ t, (t, e.1) ∈ st.calls ∧ e.1 = env.hash t ∧ env.evaluate t e.1 = .ok e.2
  ranked : ∃ rank : Str → Nat, ∀ e ∈ st.results, ∃ qs, e.2 = holedText qs ∧ ¬ SpellsPlaceholder qs ∧ ∀ k, .hole k ∈ qs → HasKey st.results k ∧ rank k < rank e.1

theorem hasKey_setResult {m : List (Str × Str)} {k v k' : Str} (h : HasKey m k') : HasKey (setResult m k v) k' := by
  obtain ⟨a, ha⟩ := h
  by_cases e : k' = k
  · subst e; exact ⟨v, mem_setResult.mpr (.inl rfl)⟩
  · exact ⟨a, mem_setResult.mpr (.inr ⟨ha, e⟩)⟩

/-- Placeholders in answers are those of the template. -/
def EchoesPlaceholders (env : TemplateEnv) : Prop := ∀ t a, env.evaluate t (env.hash t) = .ok a →
  ∃ qs, a = holedText qs ∧ ¬ SpellsPlaceholder qs ∧ ∀ k, .hole k ∈ qs → (0x24 : Byte) ∉ k ∧ holeText k <:+: t

theorem rank_bound (rank : Str → Nat) (m : List (Str × Str)) : ∃ B, ∀ k, HasKey m k → rank k < B := by
  induction m with
  | nil => exact ⟨0, fun k ⟨a, ha⟩ => by cases ha⟩
  | cons e m ih =>
    obtain ⟨B, h⟩ := ih
    refine ⟨max B (rank e.1 + 1), ?_⟩
    rintro k ⟨a, ha⟩
    rcases List.mem_cons.mp ha with rfl | ha
    · show rank k < max B (rank k + 1); omega
    · have := h k ⟨a, ha⟩; omega

theorem Answers.add {env : TemplateEnv} {st : TemplateState} (hd : ∀ t, (0x24 : Byte) ∉ env.hash t) (he : EchoesPlaceholders env)
    (h : Answers env st) {t a : Str} (ht : HolesIn st.results t) (ha : env.evaluate t (env.hash t) = .ok a)
    (hc : NoCollision (st.calls ++ [(t, env.hash t)])) :
    Answers env ⟨st.calls ++ [(t, env.hash t)], setResult st.results (env.hash t) a⟩ := by
  refine ⟨setResult_nodup h.nodup _ _, ?_, ?_⟩
  · intro e hm
    rcases mem_setResult.mp hm with rfl | ⟨hm, -⟩
    · exact ⟨t, by simp, rfl, ha⟩
    · obtain ⟨t', h1, h2⟩ := h.sent e hm
      exact ⟨t', List.mem_append_left _ h1, h2⟩
  · obtain ⟨rank, hr⟩ := h.ranked
    by_cases hk : HasKey st.results (env.hash t)
    · obtain ⟨a', ha'⟩ := hk
      obtain ⟨t', h1, h2, h3⟩ := h.sent _ ha'
      have : t' = t := hc (t', env.hash t) (List.mem_append_left _ h1) (t, env.hash t) (by simp) rfl
      subst this
      have : a' = a := by rw [ha] at h3; cases h3; rfl
      subst this
      refine ⟨rank, fun e hm => ?_⟩
      have hm' : e ∈ st.results := by
        rcases mem_setResult.mp hm with rfl | ⟨hm, -⟩
        · exact ha'
        · exact hm
      obtain ⟨qs, h4, h6, h5⟩ := hr e hm'
      exact ⟨qs, h4, h6, fun k hk => ⟨hasKey_setResult (h5 k hk).1, (h5 k hk).2⟩⟩
    · obtain ⟨qs, hq, hqc, hqk⟩ := he t a ha
      obtain ⟨ps, hp1, hp2, hp3⟩ := ht
      have hkeys : ∀ k, HasKey st.results k → (0x24 : Byte) ∉ k := by
        rintro k ⟨b, hb⟩
        obtain ⟨t', -, h2, -⟩ := h.sent _ hb
        rw [show k = env.hash t' from h2]
        exact hd _
      -- the placeholders of the answer
      have hin : ∀ k, .hole k ∈ qs → HasKey st.results k := by
        intro k hk
        have := hqk k hk
        rw [hp1] at this
        exact hp3 k (hole_of_infix this.1 hp2 (fun k' hk' => hkeys k' (hp3 k' hk')) this.2)
      obtain ⟨B, hB⟩ := rank_bound rank st.results
      refine ⟨fun k => if k = env.hash t then B else rank k, fun e hm => ?_⟩
      rcases mem_setResult.mp hm with rfl | ⟨hm, hne⟩
      · refine ⟨qs, hq, hqc, fun k hkq => ⟨hasKey_setResult (hin k hkq), ?_⟩⟩
        have hne : k ≠ env.hash t := by rintro rfl; exact hk (hin _ hkq)
        simp only [hne, if_false, if_true]
        exact hB k (hin k hkq)
      · obtain ⟨rs, h4, h6, h5⟩ := hr e hm
        refine ⟨rs, h4, h6, fun k hkq => ⟨hasKey_setResult (h5 k hkq).1, ?_⟩⟩
        have hne' : k ≠ env.hash t := by rintro rfl; exact hk (h5 _ hkq).1
        simp only [hne, hne', if_false]
        exact (h5 k hkq).2

theorem placeholderLoop_calls_subset (env : TemplateEnv) (fuel : Nat) : ∀ (content : Str) (i : Nat) (st : TemplateState) (r : Str × TemplateState),
    placeholderLoop env fuel content i st = some (.ok r) → ∀ e ∈ st.calls, e ∈ r.2.calls := by
  induction fuel with
  | zero => intro content i st r h; cases h
  | succ fuel ih =>
    intro content i st r h e he
    rw [placeholderLoop] at h
    split at h
    · split at h
      · split at h
        · cases h
        · rename_i endIndex _
          simp only at h
          split at h
          · cases h
          · rename_i inner st' hin
            have hs' : e ∈ st'.calls := by
              split at hin
              · exact ih _ _ _ _ hin e he
              · cases hin; exact he
            split at h
            · exact ih _ _ _ _ h e (List.mem_append_left _ hs')
            · cases h
            · cases h
            · cases h
          · cases h
          · cases h
          · cases h
      · exact ih _ _ _ _ h e he
    · cases h; exact he

theorem placeholderLoop_mono (env : TemplateEnv) (fuel : Nat) : ∀ (content : Str) (i : Nat) (st : TemplateState) (r : Res (Str × TemplateState)),
    placeholderLoop env fuel content i st = some r → ∀ more, fuel ≤ more → placeholderLoop env more content i st = some r := by
  induction fuel with
  | zero => intro content i st r h; cases h
  | succ fuel ih =>
    intro content i st r h more hm
    obtain ⟨more, rfl⟩ := Nat.exists_eq_add_of_le' (show 1 ≤ more by omega)
    have hm : fuel ≤ more := by omega
    rw [placeholderLoop] at h
    rw [placeholderLoop]
    split at h
    swap
    · rename_i h1; rw [if_neg h1]; exact h
    rename_i h1
    rw [if_pos h1]
    split at h
    swap
    · rename_i h2; rw [if_neg h2]; exact ih _ _ _ _ h _ hm
    rename_i h2
    rw [if_pos h2]
    split at h
    · exact h
    rename_i endIndex h3
    have inner : ∀ r', (if contains (((content.take (endIndex + 2)).drop i).drop 2) b!"{{" then
          placeholderLoop env fuel (((content.take (endIndex + 2)).drop i).drop 2) 0 st
          else some (.ok (((content.take (endIndex + 2)).drop i).drop 2, st))) = some r' →
        (if contains (((content.take (endIndex + 2)).drop i).drop 2) b!"{{" then
          placeholderLoop env more (((content.take (endIndex + 2)).drop i).drop 2) 0 st
          else some (.ok (((content.take (endIndex + 2)).drop i).drop 2, st))) = some r' := by
      intro r' h
      split at h
      · rename_i h4; rw [if_pos h4]; exact ih _ _ _ _ h _ hm
      · rename_i h4; rw [if_neg h4]; exact h
    simp only at h
    split at h
    · cases h
    · rename_i txt st' hin
      simp only [inner _ hin]
      split at h
      · exact ih _ _ _ _ h _ hm
      · exact h
      · exact h
      · exact h
    · rename_i hin; simp only [inner _ hin]; exact h
    · rename_i hin; simp only [inner _ hin]; exact h
    · rename_i hin; simp only [inner _ hin]; exact h

/-- The search keeps the answers and the text in order. -/
theorem placeholderLoop_answers (env : TemplateEnv) (hd : ∀ t, ∀ c ∈ env.hash t, c ≠ 0x24 ∧ ¬ brace c) (he : EchoesPlaceholders env) (fuel : Nat) :
    ∀ (content : Str) (i : Nat) (st : TemplateState) (c' : Str) (st' : TemplateState),
    placeholderLoop env fuel content i st = some (.ok (c', st')) → NoCollision st'.calls → Answers env st → HolesIn st.results content →
    Answers env st' ∧ HolesIn st'.results c' ∧ ∀ k, HasKey st.results k → HasKey st'.results k := by
  induction fuel with
  | zero => intro content i st c' st' h; cases h
  | succ fuel ih =>
    intro content i st c' st' h hcol hst hcon
    rw [placeholderLoop] at h
    split at h
    swap
    · cases h; exact ⟨hst, hcon, fun k hk => hk⟩
    rename_i hlen
    split at h
    swap
    · exact ih _ _ _ _ _ h hcol hst hcon
    rename_i hopen
    split at h
    · cases h
    rename_i endIndex hclose
    simp only at h
    have hge := findClose_ge hclose
    have hend := findClose_here (by simp) hclose
    -- the template begins and ends with braces
    have horig : ∃ mid, (content.take (endIndex + 2)).drop i = b!"{{" ++ mid ∧ (mid.getLast? = some 0x7D) := by
      have h1 : ((content.take (endIndex + 2)).drop i).take 2 = b!"{{" := by
        rw [List.drop_take, List.take_take, show min 2 (endIndex + 2 - i) = 2 by omega]
        exact hopen
      obtain ⟨r, hr⟩ := hend
      have h2 : content.take (endIndex + 2) = content.take endIndex ++ b!"}}" := by
        rw [List.take_add, ← hr, List.take_left' (by simp)]
      refine ⟨((content.take (endIndex + 2)).drop i).drop 2, ?_, ?_⟩
      · conv_lhs => rw [← List.take_append_drop 2 ((content.take (endIndex + 2)).drop i), h1]
      · rw [List.drop_drop, h2, List.drop_append_of_le_length (by rw [List.length_take]; have := congrArg List.length hr; simp at this; omega)]
        rw [List.getLast?_append_of_ne_nil _ (by simp)]
        rfl
    have hinf : content = content.take i ++ (content.take (endIndex + 2)).drop i ++ content.drop (endIndex + 2) := by
      have h1 : content.take i = (content.take (endIndex + 2)).take i := by rw [List.take_take, show min i (endIndex + 2) = i by omega]
      rw [h1, List.take_append_drop, List.take_append_drop]
    obtain ⟨mid, hmid, hlast⟩ := horig
    rw [hmid] at h hinf
    rw [show (b!"{{" ++ mid).drop 2 = mid from rfl] at h
    have hmne : mid ≠ [] := by rintro rfl; cases hlast
    have hkeys : ∀ st : TemplateState, Answers env st → ∀ k, HasKey st.results k → ∃ t, k = env.hash t := by
      rintro st hst k ⟨a, ha⟩
      obtain ⟨t, -, h2, -⟩ := hst.sent _ ha
      exact ⟨t, h2⟩
    have hnb : ∀ st : TemplateState, Answers env st → ∀ ps : List HoledPiece, (∀ k, .hole k ∈ ps → HasKey st.results k) → NoBraces ps := by
      intro st hst ps hps k hk c hc
      obtain ⟨t, rfl⟩ := hkeys st hst k (hps k hk)
      simp only [holeText, List.mem_append] at hc
      have hw : ∀ c ∈ b!"$$TEMPLATE_PLACEHOLDER_", ¬ brace c := by unfold brace; decide
      have hw' : ∀ c ∈ b!"$$", ¬ brace c := by unfold brace; decide
      rcases hc with (hc | hc) | hc
      · exact hw c hc
      · exact (hd t c hc).2
      · exact hw' c hc
    have hopen' : brace 0x7B := .inl rfl
    have hclose' : brace 0x7D := .inr rfl
    -- a template in the text
    have cut : ∀ (st : TemplateState), Answers env st → ∀ (x y c : Str), c = x ++ (b!"{{" ++ mid) ++ y → HolesIn st.results c →
        ∃ p o q, x = holedText p ∧ mid = holedText o ∧ y = holedText q ∧ CleanHoles p ∧ CleanHoles o ∧ CleanHoles q ∧
          (∀ k, .hole k ∈ p ∨ .hole k ∈ o ∨ .hole k ∈ q → HasKey st.results k) := by
      rintro st hst x y c hc ⟨ps, h1, h2, h3⟩
      have e1 : holedText ps = x ++ ((b!"{{" ++ mid) ++ y) := by rw [← h1, hc]; simp
      obtain ⟨p, q1, rfl, rfl, e2⟩ := holed_cut (hnb st hst ps h3) e1 (.inr (.inr (.inr ⟨_, rfl, hopen'⟩)))
      have h3' : ∀ k, .hole k ∈ q1 → HasKey st.results k := fun k hk => h3 k (List.mem_append_right _ hk)
      have e3 : holedText q1 = b!"{{" ++ (mid ++ y) := by rw [← e2]; simp
      obtain ⟨q0, q2, rfl, -, e4⟩ := holed_cut (hnb st hst q1 h3') e3 (.inr (.inr (.inl ⟨_, rfl, hopen'⟩)))
      have h3'' : ∀ k, .hole k ∈ q2 → HasKey st.results k := fun k hk => h3' k (List.mem_append_right _ hk)
      obtain ⟨o, q, rfl, e5, e6⟩ := holed_cut (hnb st hst q2 h3'') e4.symm (.inr (.inr (.inl ⟨_, hlast, hclose'⟩)))
      refine ⟨p, o, q, rfl, e5, e6, CleanHoles.infix h2 (List.prefix_append _ _).isInfix, CleanHoles.infix h2 ?_, CleanHoles.infix h2 ?_, ?_⟩
      · exact ⟨p ++ q0, q, by simp⟩
      · exact ⟨p ++ q0 ++ o, [], by simp⟩
      · rintro k (hk | hk | hk)
        · exact h3 k (by simp [hk])
        · exact h3'' k (by simp [hk])
        · exact h3'' k (by simp [hk])
    obtain ⟨p, o, q, -, eo, -, -, co, -, hpo⟩ := cut st hst _ _ _ hinf hcon
    have hmidIn : HolesIn st.results mid := ⟨o, eo, co, fun k hk => hpo k (.inr (.inl hk))⟩
    split at h
    · cases h
    · rename_i inner st1 hin
      split at h
      · rename_i a ha
        have hcol1 : NoCollision (st1.calls ++ [(b!"{{" ++ inner, env.hash (b!"{{" ++ inner))]) := by
          have := placeholderLoop_calls_subset env fuel _ _ _ _ h
          exact fun e he e' he' => hcol e (this e he) e' (this e' he')
        have hst1 : Answers env st1 ∧ HolesIn st1.results inner ∧ ∀ k, HasKey st.results k → HasKey st1.results k := by
          split at hin
          · exact ih _ _ _ _ _ hin (fun e he e' he' => hcol1 e (List.mem_append_left _ he) e' (List.mem_append_left _ he')) hst hmidIn
          · cases hin; exact ⟨hst, hmidIn, fun k hk => hk⟩
        obtain ⟨ha1, hi1, hk1⟩ := hst1
        have ht : HolesIn st1.results (b!"{{" ++ inner) := by
          obtain ⟨ps, h1, h2, h3⟩ := hi1
          refine ⟨.char 0x7B :: .char 0x7B :: ps, by rw [h1]; rfl, ?_, ?_⟩
          · rintro ⟨x, y, hxy⟩
            cases x with
            | nil => simp [holeWord] at hxy
            | cons c x =>
              injection hxy with _ hxy
              cases x with
              | nil => simp [holeWord] at hxy
              | cons c x =>
                injection hxy with _ hxy
                exact h2 ⟨x, y, hxy⟩
          · intro k hk
            simp at hk
            exact h3 k hk
        have ha2 := ha1.add (fun t hm => (hd t _ hm).1 rfl) he ht ha hcol1
        have hk2 : ∀ k, HasKey st1.results k → HasKey (setResult st1.results (env.hash (b!"{{" ++ inner)) a) k := fun k hk => hasKey_setResult hk
        have hcon2 : HolesIn (setResult st1.results (env.hash (b!"{{" ++ inner)) a)
            (replaceFirst (b!"{{" ++ mid) (templatePlaceholder (env.hash (b!"{{" ++ inner))) content) := by
          rcases replaceFirst_cases (b!"{{" ++ mid) (templatePlaceholder (env.hash (b!"{{" ++ inner))) content with e | ⟨x, y, e1, e2⟩
          · rw [e]; exact (hcon.mono hk1).mono hk2
          · obtain ⟨p, o, q, rfl, -, rfl, cp, -, cq, hk⟩ := cut st1 ha1 x y content e1 (hcon.mono hk1)
            rw [e2]
            refine ⟨p ++ .hole (env.hash (b!"{{" ++ inner)) :: q, ?_, CleanHoles.hole cp cq, ?_⟩
            · rw [holedText_append, holedText_cons, List.append_assoc]; rfl
            · intro k hm
              rcases List.mem_append.mp hm with hm | hm
              · exact hk2 k (hk k (.inl hm))
              · rcases List.mem_cons.mp hm with hm | hm
                · cases hm; exact ⟨a, mem_setResult.mpr (.inl rfl)⟩
                · exact hk2 k (hk k (.inr (.inr hm)))
        obtain ⟨h1, h2, h3⟩ := ih _ _ _ _ _ h hcol ha2 hcon2
        exact ⟨h1, h2, fun k hk => h3 k (hk2 k (hk1 k hk))⟩
      · cases h
      · cases h
      · cases h
    · cases h
    · cases h
    · cases h

theorem Filled.of_holes {answers : List (Str × Str)} {ps : List HoledPiece}
    (h : ∀ k, .hole k ∈ ps → ∃ inner y, (k, holedText inner) ∈ answers ∧ ¬ SpellsPlaceholder inner ∧ Filled answers inner y) :
    ∃ x, Filled answers ps x := by
  induction ps with
  | nil => exact ⟨_, .nil⟩
  | cons p ps ih =>
    obtain ⟨x, hx⟩ := ih (fun k hk => h k (List.mem_cons_of_mem _ hk))
    cases p with
    | char c => exact ⟨_, .char c hx⟩
    | hole k =>
      obtain ⟨inner, y, h1, h2, h3⟩ := h k List.mem_cons_self
      exact ⟨_, .hole k h1 h2 h3 hx⟩

theorem _root_.Verif.Spec.Filled.resolved {answers : List (Str × Str)} {ps : List HoledPiece} {x : Str} (h : Filled answers ps x) : Resolved answers ps x := by
  induction h with
  | nil => exact .nil
  | char c _ ih => exact .char c ih
  | hole k h1 _ _ _ ih1 ih2 => exact .hole k h1 ih1 ih2

/-- The text without placeholders exists. -/
theorem Answers.filled {env : TemplateEnv} {st : TemplateState} (h : Answers env st) {ps : List HoledPiece}
    (hp : ∀ k, .hole k ∈ ps → HasKey st.results k) : ∃ x, Filled st.results ps x := by
  obtain ⟨rank, hr⟩ := h.ranked
  have key : ∀ n k, rank k < n → HasKey st.results k →
      ∃ inner y, (k, holedText inner) ∈ st.results ∧ ¬ SpellsPlaceholder inner ∧ Filled st.results inner y := by
    intro n
    induction n with
    | zero => intro k hk; omega
    | succ n ih =>
      rintro k hk ⟨a, ha⟩
      obtain ⟨qs, h1, h3, h2⟩ := hr _ ha
      simp only at h1 h2
      obtain ⟨y, hy⟩ := Filled.of_holes (answers := st.results) (ps := qs) fun k' hk' => ih k' (by have := (h2 k' hk').2; omega) (h2 k' hk').1
      exact ⟨qs, y, by rw [← h1]; exact ha, h3, hy⟩
  exact Filled.of_holes fun k hk => key _ k (Nat.lt_succ_self _) (hp k hk)

/-- There is only one text without placeholders. -/
theorem _root_.Verif.Spec.Filled.unique {answers : List (Str × Str)} (hn : (answers.map Prod.fst).Nodup) (hd : ∀ e ∈ answers, (0x24 : Byte) ∉ e.1)
    {ps : List HoledPiece} {x : Str} (h : Filled answers ps x) : ∀ {x' : Str}, Filled answers ps x' → x = x' := by
  induction h with
  | nil => intro x' h'; cases h'; rfl
  | char c _ ih => intro x' h'; cases h' with | char _ h' => rw [ih h']
  | @hole ps inner x y k h1 h2 hi _ ih1 ih2 =>
    intro x' h'
    cases h' with
    | @hole _ inner' x' y' _ h1' h2' hi' h' =>
      have e : holedText inner = holedText inner' := by
        have := List.inj_on_of_nodup_map hn h1 h1' rfl
        exact (Prod.mk.inj this).2
      have k1 : KeysOk inner := by obtain ⟨n, h⟩ := Resolved.count hi.resolved; exact h.keys hd
      have k2 : KeysOk inner' := by obtain ⟨n, h⟩ := Resolved.count hi'.resolved; exact h.keys hd
      have := holedText_inj h2 h2' k1 k2 e
      subst this
      rw [ih1 hi', ih2 h']

theorem CleanHoles.of_text {content : Str} (hw : ¬ b!"TEMPLATE_PLACEHOLDER_" <:+: content) : HolesIn [] content := by
  refine ⟨content.map .char, (holedText_chars content).symm, ?_, by intro k hk; simp at hk⟩
  rintro ⟨x, y, h⟩
  apply hw
  have hx : ∀ l : List HoledPiece, (∃ r, l <:+: r ∧ ∃ s : Str, r = s.map .char) → ∃ s : Str, l = s.map .char := by
    rintro l ⟨r, hl, s, rfl⟩
    obtain ⟨a, b, hab⟩ := hl
    obtain ⟨u, v, rfl, h1, -⟩ := List.append_eq_map_iff.mp hab
    obtain ⟨u', v', rfl, -, h2⟩ := List.append_eq_map_iff.mp h1.symm
    exact ⟨v', h2.symm⟩
  obtain ⟨u, hu⟩ := hx x ⟨_, ⟨[], holeWord.map .char ++ y, by rw [← h]; simp⟩, content, rfl⟩
  obtain ⟨v, hv⟩ := hx y ⟨_, ⟨x ++ holeWord.map .char, [], by rw [← h]; simp⟩, content, rfl⟩
  refine ⟨u, v, ?_⟩
  have := congrArg holedText h
  rw [hu, hv, holedText_append, holedText_append, holedText_chars, holedText_chars, holedText_chars, holedText_chars] at this
  exact this

end Verif.Lemmas
