import Verif.Model.ArticleText
import Verif.Lemmas.TemplatesEnd

/-!
# The number of steps does not matter

Once a part of the generator has finished, it has the same result with every larger number of steps.
-/

namespace Verif.Lemmas
open Verif.Go Verif.Model

/-- The first run has not finished, or has the same result as the second one. -/
def Later {α : Type} (x y : Option (Res α)) : Prop := x = none ∨ x = y

theorem Later.eq_some {α : Type} {x y : Option (Res α)} (h : Later x y) {r : Res α} (hx : x = some r) : y = some r := by
  rcases h with h | h
  · rw [h] at hx; cases hx
  · rw [← h]; exact hx

theorem later_bind {α β : Type} {m1 m2 : ExpM α} {f1 f2 : α → ExpM β} (hm : Later m1 m2)
    (hf : ∀ a, Later (f1 a) (f2 a)) : Later (m1 >>= f1 : ExpM β) (m2 >>= f2 : ExpM β) := by
  rcases hm with rfl | rfl
  · exact .inl rfl
  · rcases m1 with _ | _ | _ | _ | _
    · exact .inl rfl
    · exact hf _
    · exact .inr rfl
    · exact .inr rfl
    · exact .inr rfl

theorem later_mapM {α β : Type} {f1 f2 : α → ExpM β} (hf : ∀ a, Later (f1 a) (f2 a)) (l : List α) :
    Later (ExpM.mapM f1 l) (ExpM.mapM f2 l) := by
  induction l with
  | nil => exact .inr rfl
  | cons a l ih => exact later_bind (hf a) fun b => later_bind ih fun bs => .inr rfl

theorem later_expandLoop {α : Type} (simple : Str → List α) {k1 k2 : Str → ExpM (List α)}
    (hk : ∀ key, Later (k1 key) (k2 key)) (content rest : Str) (skip i : Nat) (segment : Option Nat) (new : List α) :
    Later (expandLoop simple k1 content rest skip i segment new) (expandLoop simple k2 content rest skip i segment new) := by
  induction rest generalizing skip i segment new with
  | nil => rw [expandLoop, expandLoop]; exact .inr rfl
  | cons c t ih =>
    cases skip with
    | succ skip => rw [expandLoop, expandLoop]; exact ih _ _ _ _
    | zero =>
      rw [expandLoop, expandLoop]
      split
      · split
        · exact .inr rfl
        · exact later_bind (hk _) fun x => ih _ _ _ _
      · exact ih _ _ _ _

theorem later_table {ex1 ex2 : Str → ExpM Str} (h : ∀ s, Later (ex1 s) (ex2 s)) (rows : List (List TableCol)) (caption : Str) :
    Later (expandTable ex1 rows caption) (expandTable ex2 rows caption) := by
  refine later_bind (later_mapM (fun row => ?_) rows) fun _ => later_bind (h caption) fun _ => .inr rfl
  refine later_bind (later_mapM (fun col => ?_) row) fun _ => .inr rfl
  exact later_bind (h _) fun _ => .inr rfl

mutual
theorem later_list {ex1 ex2 : Str → ExpM Str} (h : ∀ s, Later (ex1 s) (ex2 s)) :
    (l : ListTok) → Later (expandList ex1 l) (expandList ex2 l)
  | .mk kind items => by
    rw [expandList, expandList]
    exact later_bind (later_items h items) fun _ => .inr rfl
theorem later_items {ex1 ex2 : Str → ExpM Str} (h : ∀ s, Later (ex1 s) (ex2 s)) :
    (l : List ItemTok) → Later (expandItems ex1 l) (expandItems ex2 l)
  | [] => by rw [expandItems, expandItems]; exact .inr rfl
  | item :: rest => by
    rw [expandItems, expandItems]
    exact later_bind (later_item h item) fun _ => later_bind (later_items h rest) fun _ => .inr rfl
theorem later_item {ex1 ex2 : Str → ExpM Str} (h : ∀ s, Later (ex1 s) (ex2 s)) :
    (l : ItemTok) → Later (expandItem ex1 l) (expandItem ex2 l)
  | .mk type content subLists => by
    rw [expandItem, expandItem]
    exact later_bind (h content) fun _ => later_bind (later_subLists h subLists) fun _ => .inr rfl
theorem later_subLists {ex1 ex2 : Str → ExpM Str} (h : ∀ s, Later (ex1 s) (ex2 s)) :
    (l : List ListTok) → Later (expandSubLists ex1 l) (expandSubLists ex2 l)
  | [] => by rw [expandSubLists, expandSubLists]; exact .inr rfl
  | l :: rest => by
    rw [expandSubLists, expandSubLists]
    exact later_bind (later_list h l) fun _ => later_bind (later_subLists h rest) fun _ => .inr rfl
end

theorem later_token (html : HtmlEnv) {ex1 ex2 : Str → ExpM Str}
    (h : ∀ s, Later (ex1 s) (ex2 s)) (token : Token) : Later (expandToken html ex1 token) (expandToken html ex2 token) := by
  cases token with
  | heading content depth => exact later_bind (h _) fun _ => .inr rfl
  | inlineImage filename x y => exact .inr rfl
  | image filename caption x y => exact later_bind (h _) fun _ => .inr rfl
  | externalLink url text => exact later_bind (h _) fun _ => .inr rfl
  | internalLink a text => exact h _
  | list l => exact later_list h l
  | table rows caption => exact later_table h rows caption
  | math content => exact .inr rfl
  | refDefinition index content => exact later_bind (h _) fun _ => .inr rfl
  | refUsage index => exact .inr rfl
  | nowiki content => exact .inr rfl
  | string s => exact .inr rfl

theorem later_expandString (html : HtmlEnv) (tokens : List (Str × Token)) (fuel more : Nat) (hm : fuel ≤ more)
    (content : Str) : Later (expandString html tokens fuel content) (expandString html tokens more content) := by
  induction fuel generalizing content more with
  | zero => exact .inl rfl
  | succ fuel ih =>
    obtain ⟨more, rfl⟩ := Nat.exists_eq_add_of_le' (show 1 ≤ more by omega)
    rw [expandString, expandString]
    split
    · refine later_expandLoop _ (fun key => ?_) _ _ _ _ _ _
      unfold expandKey
      split
      · exact .inr rfl
      · exact later_token html (ih more (by omega)) _
    · exact .inr rfl

theorem resolvePlaceholders_mono (iterate : Nat → List (Str × Str) → List (Str × Str)) (results : List (Str × Str)) (fuel : Nat) :
    ∀ (n : Nat) (content text : Str), resolvePlaceholders iterate results fuel n content = some text → ∀ more, fuel ≤ more →
      resolvePlaceholders iterate results more n content = some text := by
  induction fuel with
  | zero => intro n content text h; cases h
  | succ fuel ih =>
    intro n content text h more hm
    obtain ⟨more, rfl⟩ := Nat.exists_eq_add_of_le' (show 1 ≤ more by omega)
    rw [resolvePlaceholders] at h ⊢
    split at h
    · rename_i hc
      rw [if_pos hc]
      exact ih _ _ _ h _ (by omega)
    · rename_i hc
      rw [if_neg hc]
      exact h

theorem evaluateTemplates_mono (env : TemplateEnv) (iterate : Nat → List (Str × Str) → List (Str × Str)) {fuel more : Nat} (hm : fuel ≤ more)
    {content : Str} {r : Res (Str × List (Str × Str))} (h : evaluateTemplates env iterate fuel content = some r) :
    evaluateTemplates env iterate more content = some r := by
  rw [evaluateTemplates] at h ⊢
  generalize hp : placeholderLoop env fuel content 0 ⟨[], []⟩ = p at h
  match p, hp with
  | none, hp => cases h
  | some (.ok (c, st)), hp =>
    rw [placeholderLoop_mono env fuel _ _ _ _ hp more hm]
    simp only [Option.map_eq_some_iff] at h ⊢
    obtain ⟨t, h1, h2⟩ := h
    exact ⟨t, resolvePlaceholders_mono _ _ _ _ _ _ h1 _ hm, h2⟩
  | some .err, hp => rw [placeholderLoop_mono env fuel _ _ _ _ hp more hm]; exact h
  | some .panic, hp => rw [placeholderLoop_mono env fuel _ _ _ _ hp more hm]; exact h
  | some .fatal, hp => rw [placeholderLoop_mono env fuel _ _ _ _ hp more hm]; exact h

end Verif.Lemmas
