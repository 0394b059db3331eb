import Verif.Lemmas.HaltTokenize
import Verif.Model.ArticleText
import Verif.Lemmas.TableTokens
import Verif.Lemmas.PlainText

/-!
# Termination of the cleaning and of the search for templates
-/

namespace Verif.Lemmas
open Verif.Go Verif.Model Verif.Spec
open scoped List

theorem AlwaysEnds.of_halts {α : Type} {f : Nat → TokM α} {P : α → Prop} (h : Halts (fun n _ => f n) P) (s : TokState) :
    AlwaysEnds fun fuel => f fuel s := by
  obtain ⟨N, r, h1, _⟩ := h s
  exact ⟨N, r, fun n hn => h1 n N hn (Nat.le_refl _)⟩

/-! ### Railway tables -/

theorem railwayLoop_ends (k : Nat) : ∀ (content : Str) (i : Nat), content.length - i ≤ k →
    ∃ N r, (∀ fuel, N ≤ fuel → railwayLoop fuel content i = some r) ∧ ∀ c, r = .ok c → c.length ≤ content.length := by
  induction k with
  | zero =>
    intro content i h
    refine ⟨1, .ok content, fun fuel hf => ?_, fun c e => by cases e; exact Nat.le_refl _⟩
    obtain ⟨fuel, rfl⟩ := Nat.exists_eq_add_of_le' hf
    rw [railwayLoop, if_neg (by omega)]
  | succ k ih =>
    intro content i h
    by_cases h1 : i + 12 < content.length
    · by_cases h2 : (content.drop i).take 12 = b!"{{BS-table}}"
      · obtain ⟨N, r, hN, hr⟩ := ih content (i + 12) (by omega)
        have step : ∀ (r' : Res Str), (∀ fuel, N ≤ fuel → railwayLoop (fuel + 1) content i = some r') →
            ∃ N r, (∀ fuel, N ≤ fuel → railwayLoop fuel content i = some r) ∧ r = r' := by
          intro r' h
          refine ⟨N + 1, r', fun fuel hf => ?_, rfl⟩
          obtain ⟨fuel, rfl⟩ := Nat.exists_eq_add_of_le' (show 1 ≤ fuel by omega)
          exact h fuel (by omega)
        have unfold1 : ∀ fuel, N ≤ fuel → railwayLoop (fuel + 1) content i = match some r with
            | some (.ok content) =>
              match findClose content (i + 12) b!"{{BS-table}}" b!"|}" with
              | none => some .err
              | some endIndex =>
                let content := content.take endIndex ++ content.drop (endIndex + 2)
                railwayLoop fuel (content.take i ++ content.drop (i + 12)) (i + 1)
            | other => other := by
          intro fuel hf
          rw [railwayLoop, if_pos h1, if_pos h2, hN fuel hf]
          rfl
        cases r with
        | ok c =>
          have hc := hr c rfl
          cases hcl : findClose c (i + 12) b!"{{BS-table}}" b!"|}" with
          | none =>
            obtain ⟨N', r', g1, rfl⟩ := step .err fun fuel hf => by rw [unfold1 fuel hf]; simp only [hcl]
            exact ⟨N', _, g1, fun c e => by cases e⟩
          | some endIndex =>
            have hl : ((c.take endIndex ++ c.drop (endIndex + 2)).take i ++ (c.take endIndex ++ c.drop (endIndex + 2)).drop (i + 12)).length ≤ content.length := by
              simp only [List.length_append, List.length_take, List.length_drop]
              omega
            obtain ⟨N', r', g1, g2⟩ := ih ((c.take endIndex ++ c.drop (endIndex + 2)).take i ++ (c.take endIndex ++ c.drop (endIndex + 2)).drop (i + 12)) (i + 1) (by omega)
            refine ⟨max N N' + 1, r', fun fuel hf => ?_, fun c e => (g2 c e).trans hl⟩
            obtain ⟨fuel, rfl⟩ := Nat.exists_eq_add_of_le' (show 1 ≤ fuel by omega)
            rw [unfold1 fuel (by omega)]
            simp only [hcl]
            exact g1 fuel (by omega)
        | err =>
          obtain ⟨N', r', g1, rfl⟩ := step .err fun fuel hf => by rw [unfold1 fuel hf]
          exact ⟨N', _, g1, fun c e => by cases e⟩
        | panic =>
          obtain ⟨N', r', g1, rfl⟩ := step .panic fun fuel hf => by rw [unfold1 fuel hf]
          exact ⟨N', _, g1, fun c e => by cases e⟩
        | fatal =>
          obtain ⟨N', r', g1, rfl⟩ := step .fatal fun fuel hf => by rw [unfold1 fuel hf]
          exact ⟨N', _, g1, fun c e => by cases e⟩
      · obtain ⟨N, r, hN, hr⟩ := ih content (i + 1) (by omega)
        refine ⟨N + 1, r, fun fuel hf => ?_, hr⟩
        obtain ⟨fuel, rfl⟩ := Nat.exists_eq_add_of_le' (show 1 ≤ fuel by omega)
        rw [railwayLoop, if_pos h1, if_neg h2]
        exact hN fuel (by omega)
    · refine ⟨1, .ok content, fun fuel hf => ?_, fun c e => by cases e; exact Nat.le_refl _⟩
      obtain ⟨fuel, rfl⟩ := Nat.exists_eq_add_of_le' hf
      rw [railwayLoop, if_neg h1]

theorem cleanText_ends (env : ParserEnv) (content : Str) : AlwaysEnds fun fuel => cleanText env fuel content := by
  unfold cleanText
  cases removeUnwantedInternalLinks env (removeComments content) with
  | ok c =>
    obtain ⟨N, r, h, _⟩ := railwayLoop_ends _ (removeEmptySections (removeEmptyListEntries (removeUnwantedWikitext (handleUnwantedAndTrailingTemplates env c)))) 0 (Nat.le_refl _)
    exact ⟨N, r, h⟩
  | err => exact ⟨0, .err, fun _ _ => rfl⟩
  | panic => exact ⟨0, .panic, fun _ _ => rfl⟩
  | fatal => exact ⟨0, .fatal, fun _ _ => rfl⟩

/-! ### Templates -/

theorem replaceFirst_count {old new s : Str} {c : Byte} (h : old <:+: s) (h0 : old ≠ []) (hn : new.count c < old.count c) :
    (replaceFirst old new s).count c < s.count c := by
  induction s with
  | nil => exact absurd (List.eq_nil_of_infix_nil h) h0
  | cons x t ih =>
    rw [replaceFirst]
    split
    · rename_i hp
      obtain ⟨r, hr⟩ := List.isPrefixOf_iff_prefix.mp hp
      rw [← hr, List.drop_left, List.count_append, List.count_append]
      omega
    · rename_i hp
      have ht : old <:+: t := by
        rcases List.infix_cons_iff.mp h with h | h
        · exact absurd (List.isPrefixOf_iff_prefix.mpr h) hp
        · exact h
      have := ih ht
      rw [List.count_cons, List.count_cons]
      omega

theorem placeholderLoop_ends (env : TemplateEnv) (hh : ∀ t, (0x7B : Byte) ∉ env.hash t) (k : Nat) : ∀ (content : Str), content.count 0x7B = k →
    ∀ (d i : Nat), content.length - i = d → ∀ st, ∃ N r, ∀ fuel, N ≤ fuel → placeholderLoop env fuel content i st = some r := by
  induction k using Nat.strongRecOn with
  | _ k ihk =>
    intro content hk d
    induction d with
    | zero =>
      intro i hd st
      refine ⟨1, .ok (content, st), fun fuel hf => ?_⟩
      obtain ⟨fuel, rfl⟩ := Nat.exists_eq_add_of_le' hf
      rw [placeholderLoop, if_neg (by omega)]
    | succ d ihd =>
      intro i hd st
      by_cases h1 : i + 2 < content.length
      swap
      · refine ⟨1, .ok (content, st), fun fuel hf => ?_⟩
        obtain ⟨fuel, rfl⟩ := Nat.exists_eq_add_of_le' hf
        rw [placeholderLoop, if_neg h1]
      by_cases h2 : (content.drop i).take 2 = b!"{{"
      swap
      · obtain ⟨N, r, h⟩ := ihd (i + 1) (by omega) st
        refine ⟨N + 1, r, fun fuel hf => ?_⟩
        obtain ⟨fuel, rfl⟩ := Nat.exists_eq_add_of_le' (show 1 ≤ fuel by omega)
        rw [placeholderLoop, if_pos h1, if_neg h2]
        exact h fuel (by omega)
      cases hc : findClose content (i + 2) b!"{{" b!"}}" with
      | none =>
        refine ⟨1, .err, fun fuel hf => ?_⟩
        obtain ⟨fuel, rfl⟩ := Nat.exists_eq_add_of_le' hf
        rw [placeholderLoop, if_pos h1, if_pos h2, hc]
      | some endIndex =>
        have hge := findClose_ge hc
        have horig : (content.take (endIndex + 2)).drop i = b!"{{" ++ ((content.take (endIndex + 2)).drop i).drop 2 := by
          have : ((content.take (endIndex + 2)).drop i).take 2 = b!"{{" := by
            rw [List.drop_take, List.take_take, show min 2 (endIndex + 2 - i) = 2 by omega]
            exact h2
          conv_lhs => rw [← List.take_append_drop 2 ((content.take (endIndex + 2)).drop i), this]
        have hinf : (content.take (endIndex + 2)).drop i <:+: content :=
          (List.drop_suffix _ _).isInfix.trans (List.take_prefix _ _).isInfix
        generalize hdef : (content.take (endIndex + 2)).drop i = original at *
        have hcount : original.count 0x7B = 2 + (original.drop 2).count 0x7B := by
          conv_lhs => rw [horig, List.count_append]
          rfl
        have hin : ∃ N r, ∀ fuel, N ≤ fuel → (if contains (original.drop 2) b!"{{" then placeholderLoop env fuel (original.drop 2) 0 st
            else some (.ok (original.drop 2, st))) = some r := by
          split
          · have := hinf.sublist.count_le (0x7B : Byte)
            exact ihk _ (by omega) (original.drop 2) rfl _ 0 rfl st
          · exact ⟨0, _, fun _ _ => rfl⟩
        obtain ⟨N, r, hN⟩ := hin
        have step : ∀ r', (∀ fuel, N ≤ fuel → placeholderLoop env (fuel + 1) content i st = some r') →
            ∃ N r, ∀ fuel, N ≤ fuel → placeholderLoop env fuel content i st = some r := by
          intro r' h
          refine ⟨N + 1, r', fun fuel hf => ?_⟩
          obtain ⟨fuel, rfl⟩ := Nat.exists_eq_add_of_le' (show 1 ≤ fuel by omega)
          exact h fuel (by omega)
        have unfold1 : ∀ fuel, N ≤ fuel → placeholderLoop env (fuel + 1) content i st = match r with
            | .ok (inner, st) =>
              match env.evaluate (b!"{{" ++ inner) (env.hash (b!"{{" ++ inner)) with
              | .ok evaluated =>
                placeholderLoop env fuel (replaceFirst original (templatePlaceholder (env.hash (b!"{{" ++ inner))) content) (i + 1)
                  ⟨st.calls ++ [(b!"{{" ++ inner, env.hash (b!"{{" ++ inner))], setResult st.results (env.hash (b!"{{" ++ inner)) evaluated⟩
              | .err => some .err
              | .panic => some .panic
              | .fatal => some .fatal
            | .err => some .err
            | .panic => some .panic
            | .fatal => some .fatal := by
          intro fuel hf
          rw [placeholderLoop, if_pos h1, if_pos h2, hc]
          simp only [hdef, hN fuel hf]
          cases r <;> rfl
        cases r with
        | ok p =>
          obtain ⟨inner, st'⟩ := p
          cases he : env.evaluate (b!"{{" ++ inner) (env.hash (b!"{{" ++ inner)) with
          | ok evaluated =>
            have hlt : (replaceFirst original (templatePlaceholder (env.hash (b!"{{" ++ inner))) content).count 0x7B < k := by
              rw [← hk]
              refine replaceFirst_count hinf (by rintro rfl; cases horig) ?_
              rw [hcount, List.count_eq_zero.mpr]
              · omega
              · intro h
                simp only [templatePlaceholder, templatePlaceholderPrefix, List.mem_append] at h
                rcases h with (h | h) | h
                · exact absurd h (by decide)
                · exact hh _ h
                · exact absurd h (by decide)
            obtain ⟨N', r', h'⟩ := ihk _ hlt _ rfl _ (i + 1) rfl
              ⟨st'.calls ++ [(b!"{{" ++ inner, env.hash (b!"{{" ++ inner))], setResult st'.results (env.hash (b!"{{" ++ inner)) evaluated⟩
            refine ⟨max N N' + 1, r', fun fuel hf => ?_⟩
            obtain ⟨fuel, rfl⟩ := Nat.exists_eq_add_of_le' (show 1 ≤ fuel by omega)
            rw [unfold1 fuel (by omega)]
            simp only [he]
            exact h' fuel (by omega)
          | err => exact step .err fun fuel hf => by rw [unfold1 fuel hf]; simp only [he]
          | panic => exact step .panic fun fuel hf => by rw [unfold1 fuel hf]; simp only [he]
          | fatal => exact step .fatal fun fuel hf => by rw [unfold1 fuel hf]; simp only [he]
        | err => exact step .err fun fuel hf => by rw [unfold1 fuel hf]
        | panic => exact step .panic fun fuel hf => by rw [unfold1 fuel hf]
        | fatal => exact step .fatal fun fuel hf => by rw [unfold1 fuel hf]

theorem placeholderLoop_plain_ends (env : TemplateEnv) (content : Str) (h : ¬ b!"{{" <:+: content) (fuel : Nat) : ∀ (i : Nat) (st : TemplateState),
    content.length - i < fuel → placeholderLoop env fuel content i st = some (.ok (content, st)) := by
  induction fuel with
  | zero => intro i st hf; omega
  | succ fuel ih =>
    intro i st hf
    rw [placeholderLoop]
    split
    · rw [if_neg]
      · exact ih _ _ (by omega)
      · intro he
        apply h
        rw [← he]
        exact (List.take_prefix _ _).isInfix.trans (List.drop_suffix _ _).isInfix
    · rfl

/-! ### Cleaning adds no new characters -/

theorem not_mem_split {c : Byte} {sep s : Str} (h0 : sep ≠ []) (h : c ∉ s) : ∀ p ∈ split s sep, c ∉ p :=
  fun _ hp hc => h ((infix_of_mem_split h0 hp).subset hc)

theorem not_mem_commentSegments {c : Byte} (hc : c ∉ b!"-->") : ∀ (l : List Str), (∀ p ∈ l, c ∉ p) → c ∉ commentSegments l
  | [], _ => by simp [commentSegments]
  | [p], h => by simpa [commentSegments] using h p
  | p :: q :: l, h => by
    rw [commentSegments, List.mem_append, not_or]
    refine ⟨?_, not_mem_commentSegments hc (q :: l) fun x hx => h x (List.mem_cons_of_mem _ hx)⟩
    have hs := not_mem_split (sep := b!"<!--") (by simp) (h p (by simp))
    split
    · rename_i single e
      rw [List.mem_append, not_or]
      exact ⟨hs single (by rw [e]; simp), hc⟩
    · rename_i first _ _ e
      intro hm
      refine hs first (by rw [e]; simp) ?_
      unfold dropTrailingNewline at hm
      split at hm
      · exact List.dropLast_subset _ hm
      · exact hm
    · simp

theorem linkLoop_subset (env : ParserEnv) : ∀ (s : Str) (skip : Nat) (r : Str), linkLoop env s skip = .ok r → r ⊆ s
  | [], _, r, h => by cases h; exact List.Subset.refl _
  | _ :: t, skip + 1, r, h => by
    rw [linkLoop] at h
    exact List.subset_cons_of_subset _ (linkLoop_subset env t skip r h)
  | c :: t, 0, r, h => by
    have key : ∀ x : Res Str, x = linkLoop env t 0 → (x.bind fun rest => .ok (c :: rest)) = .ok r → r ⊆ c :: t := by
      intro x hx he
      cases x with
      | ok rest =>
        cases he
        exact List.cons_subset_cons _ (linkLoop_subset env t 0 rest hx.symm)
      | err => cases he
      | panic => cases he
      | fatal => cases he
    rw [linkLoop] at h
    split at h
    · cases h; exact List.Subset.refl _
    · split at h
      · split at h
        · cases h
        · split at h
          · split at h
            · exact List.subset_cons_of_subset _ (linkLoop_subset env t _ r h)
            · cases h
          · exact key _ rfl h
      · exact key _ rfl h

theorem sectionLoop_subset (ls : List Str) (skip : Nat) : sectionLoop ls skip ⊆ ls := by
  induction ls generalizing skip with
  | nil => simp [sectionLoop]
  | cons l rest ih =>
    cases skip with
    | succ n => exact List.subset_cons_of_subset _ (ih n)
    | zero =>
      rw [sectionLoop]
      split
      · split
        · split
          · exact List.cons_subset_cons _ (List.nil_subset _)
          · exact List.nil_subset _
        · simp only
          split
          · exact List.cons_subset_cons _ (ih 0)
          · split
            · exact List.subset_cons_of_subset _ (ih _)
            · exact List.subset_cons_of_subset _ (ih _)
      · exact List.cons_subset_cons _ (ih 0)

theorem templateLoop_plain (env : ParserEnv) (fuel : Nat) : ∀ (content : Str) (i : Nat) (found : List Str), (0x7B : Byte) ∉ content →
    templateLoop env fuel content i found = (content, found) := by
  induction fuel with
  | zero => intro content i found _; rfl
  | succ fuel ih =>
    intro content i found h
    rw [templateLoop]
    split
    · rw [if_neg]
      · exact ih content (i + 1) found h
      · intro hp
        exact h (List.mem_of_mem_drop ((List.isPrefixOf_iff_prefix.mp hp).subset (show (0x7B : Byte) ∈ b!"{{" by simp)))
    · rfl

theorem railwayLoop_plain (fuel : Nat) : ∀ (content : Str) (i : Nat), (0x7B : Byte) ∉ content → ∀ r, railwayLoop fuel content i = some r → r = .ok content := by
  induction fuel with
  | zero => intro content i _ r h; cases h
  | succ fuel ih =>
    intro content i h r hr
    rw [railwayLoop] at hr
    split at hr
    · rw [if_neg] at hr
      · exact ih content (i + 1) h r hr
      · intro hp
        exact h (List.mem_of_mem_drop (i := i) (List.mem_of_mem_take (i := 12) (by rw [hp]; simp)))
    · cases hr; rfl

theorem cleanText_new {env : ParserEnv} {fuel : Nat} {content cleaned : Str} (h : cleanText env fuel content = some (.ok cleaned))
    (hb : (0x7B : Byte) ∉ content) {c : Byte} (hc : c ∉ b!"->\n") (hm : c ∉ content) : c ∉ cleaned := by
  have h0 : c ≠ 0x0A := by rintro rfl; simp at hc
  have hcs : ∀ d : Byte, d ∉ b!"->\n" → d ∉ content → d ∉ removeComments content := by
    intro d hd hdm
    refine not_mem_commentSegments (fun h => hd ?_) _ (not_mem_split (by simp) hdm)
    have : b!"-->" ⊆ b!"->\n" := by decide
    exact this h
  unfold cleanText at h
  cases hl : removeUnwantedInternalLinks env (removeComments content) with
  | err => rw [hl] at h; cases h
  | panic => rw [hl] at h; cases h
  | fatal => rw [hl] at h; cases h
  | ok x =>
    have hx := linkLoop_subset env _ _ _ hl
    rw [hl] at h
    simp only at h
    have hkeep : ∀ d : Byte, d ∉ b!"->\n" → d ∉ content →
        d ∉ removeEmptySections (removeEmptyListEntries (removeUnwantedWikitext (handleUnwantedAndTrailingTemplates env x))) := by
      intro d hd hdm
      have hd0 : d ≠ 0x0A := by rintro rfl; simp at hd
      have h1 : d ∉ handleUnwantedAndTrailingTemplates env x := by
        rw [handleUnwantedAndTrailingTemplates, templateLoop_plain env _ x 0 [] fun h => hcs _ (by decide) hb (hx h)]
        simpa using fun h => hcs d hd hdm (hx h)
      have h2 : d ∉ removeUnwantedWikitext (handleUnwantedAndTrailingTemplates env x) :=
        not_mem_replaceAll (by simp) h1 (by simp)
      have h3 : d ∉ removeEmptyListEntries (removeUnwantedWikitext (handleUnwantedAndTrailingTemplates env x)) := by
        refine not_mem_join (by simpa using hd0) _ fun p hp => ?_
        obtain ⟨q, hq, rfl⟩ := List.mem_map.mp (List.mem_of_mem_filter hp)
        exact fun h => not_mem_split (by simp) h2 q hq (mem_of_mem_trimSpace h)
      refine not_mem_join (by simpa using hd0) _ fun p hp => not_mem_split (sep := b!"\n") (by simp) h3 p ?_
      exact sectionLoop_subset _ _ hp
    have := railwayLoop_plain fuel _ 0 (hkeep 0x7B (by decide) hb) _ h
    cases this
    exact hkeep c hc hm

end Verif.Lemmas
