import Verif.Lemmas.Whole
import Verif.Lemmas.Tokens

/-!
# Texts with complete keys become HTML
-/

namespace Verif.Lemmas
open Verif.Go Verif.Model Verif.Spec
open scoped List

variable {X : Alphabet} {m : List (Str × Token)} {ex ex' : Str → ExpM Str}

/-! ### The expansion of a token depends on the expansion of its texts only -/

mutual
theorem expandList_congr : ∀ l : ListTok, (∀ t ∈ listTexts l, ex t = ex' t) → expandList ex l = expandList ex' l
  | .mk kind items, h => by rw [expandList, expandList, expandItems_congr items h]
theorem expandItems_congr : ∀ l : List ItemTok, (∀ t ∈ itemsTexts l, ex t = ex' t) → expandItems ex l = expandItems ex' l
  | [], _ => rfl
  | item :: rest, h => by
    rw [itemsTexts] at h
    rw [expandItems, expandItems, expandItem_congr item fun t ht => h t (by simp [ht]),
      expandItems_congr rest fun t ht => h t (by simp [ht])]
theorem expandItem_congr : ∀ l : ItemTok, (∀ t ∈ itemTexts l, ex t = ex' t) → expandItem ex l = expandItem ex' l
  | .mk type content subLists, h => by
    rw [itemTexts] at h
    rw [expandItem, expandItem, h content (by simp), expandSubLists_congr subLists fun t ht => h t (by simp [ht])]
theorem expandSubLists_congr : ∀ l : List ListTok, (∀ t ∈ listsTexts l, ex t = ex' t) → expandSubLists ex l = expandSubLists ex' l
  | [], _ => rfl
  | l :: rest, h => by
    rw [listsTexts] at h
    rw [expandSubLists, expandSubLists, expandList_congr l fun t ht => h t (by simp [ht]),
      expandSubLists_congr rest fun t ht => h t (by simp [ht])]
end

theorem mapM_congr {α : Type} {f g : α → ExpM Str} : ∀ l : List α, (∀ a ∈ l, f a = g a) → ExpM.mapM f l = ExpM.mapM g l
  | [], _ => rfl
  | a :: l, h => by rw [ExpM.mapM, ExpM.mapM, h a (by simp), mapM_congr l fun b hb => h b (by simp [hb])]

theorem expandToken_congr (env : HtmlEnv) (token : Token) (h : ∀ t ∈ tokenTexts token, ex t = ex' t) :
    expandToken env ex token = expandToken env ex' token := by
  cases token with
  | heading content depth => rw [expandToken, expandToken, h content (by simp [tokenTexts])]
  | internalLink name text => rw [expandToken, expandToken, h text (by simp [tokenTexts])]
  | externalLink url text => rw [expandToken, expandToken, h text (by simp [tokenTexts])]
  | string s => rfl
  | nowiki s => rfl
  | table rows caption =>
    have hrow : ∀ row ∈ rows, expandRow ex row = expandRow ex' row := by
      intro row hr
      have hcol : ∀ col ∈ row, expandCol ex col = expandCol ex' col := by
        intro col hc
        rw [expandCol, expandCol, h col.content (by
          simp only [tokenTexts, List.mem_append, List.mem_flatMap, List.mem_map]
          exact .inl ⟨row, hr, col, hc, rfl⟩)]
      rw [expandRow, expandRow, mapM_congr row hcol]
    rw [expandToken, expandToken, expandTable, expandTable, h caption (by simp [tokenTexts]), mapM_congr rows hrow]
  | list l => exact expandList_congr l h
  | image filename caption x y => rw [expandToken, expandToken, h caption (by simp [tokenTexts])]
  | inlineImage filename x y => rfl
  | refDefinition index content => rw [expandToken, expandToken, h content (by simp [tokenTexts])]
  | refUsage index => rfl
  | math content => rfl

theorem yields_of {l : List Str} (h : ∀ t ∈ l, ∃ r, ex t = (pure r : ExpM Str)) : ∃ hs, Yields ex l hs := by
  induction l with
  | nil => exact ⟨[], .nil⟩
  | cons t l ih =>
    obtain ⟨r, hr⟩ := h t (by simp)
    obtain ⟨hs, hh⟩ := ih fun x hx => h x (by simp [hx])
    exact ⟨r :: hs, .cons hr hh⟩

theorem expandToken_pure (env : HtmlEnv) (hm : ∀ s, ∃ r, env.math s = .ok r) (token : Token)
    (h : ∀ t ∈ tokenTexts token, ∃ r, ex t = (pure r : ExpM Str)) : ∃ r, expandToken env ex token = (pure r : ExpM Str) := by
  by_cases h1 : ∃ s, token = .string s
  · obtain ⟨s, rfl⟩ := h1; exact ⟨[], rfl⟩
  · by_cases h2 : ∃ s, token = .nowiki s
    · obtain ⟨s, rfl⟩ := h2; exact ⟨s, rfl⟩
    · obtain ⟨hs, hh⟩ := yields_of h
      obtain ⟨html, e, _⟩ := expandToken_texts env ex token hs hm (fun s e => h1 ⟨s, e⟩) (fun s e => h2 ⟨s, e⟩) hh
      exact ⟨html, e⟩

theorem expandPieces_pure {env : HtmlEnv} {tokens : List (Str × Token)} (ps : List ElementPiece) (last : Str)
    (h : ∀ p ∈ ps, ∃ r, expandElement env tokens ex p.element = (pure r : ExpM Str) ∧
      expandElement env tokens ex' p.element = (pure r : ExpM Str)) :
    ∃ r, expandPieces env tokens ex ps last = (pure r : ExpM Str) ∧ expandPieces env tokens ex' ps last = (pure r : ExpM Str) := by
  induction ps with
  | nil => exact ⟨last, rfl, rfl⟩
  | cons p ps ih =>
    obtain ⟨x, h1, h2⟩ := h p (by simp)
    obtain ⟨r, h3, h4⟩ := ih fun q hq => h q (by simp [hq])
    exact ⟨p.text ++ x ++ r, by rw [expandPieces, h1, ExpM.pure_bind, h3]; rfl, by rw [expandPieces, h2, ExpM.pure_bind, h4]; rfl⟩

/-- A whole text becomes HTML. The number of steps is the number of tokens. -/
theorem Whole.html {env : HtmlEnv} (hm : ∀ s, ∃ r, env.math s = .ok r) {tokens : List (Str × Token)} (hn : NoTokenReplaced tokens)
    (hb : Built X tokens) (n : Nat) : ∀ m : List (Str × Token), m.length ≤ n → m <:+ tokens → ∀ t, Whole X m t →
      ∃ r, ∀ fuel, n < fuel → expandString env tokens fuel t = (pure r : ExpM Str) := by
  induction n with
  | zero =>
    intro m hl hs t ht
    obtain rfl := List.length_eq_zero_iff.mp (Nat.le_zero.mp hl)
    obtain ⟨ps, last, rfl, h1, h2⟩ := ht.pieces
    refine ⟨renderPieces (fun _ => true) ps last, fun fuel hf => ?_⟩
    obtain ⟨fuel, rfl⟩ : ∃ k, fuel = k + 1 := ⟨fuel - 1, by omega⟩
    rw [expandString_pieces env tokens fuel ps last (fun p hp => (h1 p hp).1) h2]
    refine expandPieces_markers env tokens _ ps last fun p hp => ?_
    have hk := (h1 p hp).2.2
    cases he : p.element with
    | marker k => exact ⟨k, rfl⟩
    | token type i => rw [he] at hk; obtain ⟨token, hx⟩ := hk; cases hx
  | succ n ih =>
    intro m hl hs t ht
    obtain ⟨ps, last, rfl, h1, h2⟩ := ht.pieces
    have key : ∀ fuel, n + 1 < fuel + 1 → ∃ r, expandPieces env tokens (expandString env tokens (n + 1)) ps last = (pure r : ExpM Str) ∧
        expandPieces env tokens (expandString env tokens fuel) ps last = (pure r : ExpM Str) := by
      intro fuel hf
      refine expandPieces_pure ps last fun p hp => ?_
      have hk := (h1 p hp).2.2
      cases he : p.element with
      | marker k => exact ⟨k.html, rfl, rfl⟩
      | token type i =>
        rw [he] at hk
        obtain ⟨token, hx⟩ := hk
        obtain ⟨a, b, hab⟩ := List.append_of_mem hx
        have hsuf : (tokenKey type i, token) :: b <:+ tokens := by
          obtain ⟨c, hc⟩ := hs
          exact ⟨c ++ a, by rw [← hc, hab]; simp⟩
        have htok := (hb.suffix hsuf).1
        have hlen : b.length ≤ n := by
          have := congrArg List.length hab
          simp at this
          omega
        have hsb : b <:+ tokens := (List.suffix_cons _ _).trans hsuf
        have each : ∀ t ∈ tokenTexts token, ∃ r, expandString env tokens (n + 1) t = (pure r : ExpM Str) ∧
            expandString env tokens fuel t = (pure r : ExpM Str) := by
          intro t ht
          obtain ⟨r, hr⟩ := ih b hlen hsb t (htok t ht)
          exact ⟨r, hr _ (by omega), hr _ (by omega)⟩
        obtain ⟨r, hr⟩ := expandToken_pure env hm token (ex := expandString env tokens (n + 1)) fun t ht =>
          (each t ht).imp fun _ h => h.1
        have hlook : lookupToken tokens (tokenKey type i) = some token := lookupToken_of_mem hn (hs.mem hx)
        have hc : expandToken env (expandString env tokens fuel) token = expandToken env (expandString env tokens (n + 1)) token :=
          expandToken_congr env token fun t ht => by
            obtain ⟨r, e1, e2⟩ := each t ht
            rw [e1, e2]
        exact ⟨r, by simp only [expandElement, hlook, hr], by simp only [expandElement, hlook, hc, hr]⟩
    obtain ⟨r, hr, _⟩ := key (n + 1) (by omega)
    refine ⟨r, fun fuel hf => ?_⟩
    obtain ⟨fuel, rfl⟩ : ∃ k, fuel = k + 1 := ⟨fuel - 1, by omega⟩
    rw [expandString_pieces env tokens fuel ps last (fun p hp => (h1 p hp).1) h2]
    obtain ⟨r', hr', hf'⟩ := key fuel hf
    rw [hr] at hr'
    cases hr'
    exact hf'

end Verif.Lemmas
