import Verif.Lemmas.WikiLinks

/-!
# Links to articles and the beginnings of images
-/

namespace Verif.Model
open Verif.Go Verif.Spec
open scoped List

/-- What is behind opening brackets: a link with its closing brackets, or the beginning of a file. -/
inductive LinkItem where
  | link (l : WikiLink)
  | file (s : Str)

def LinkItem.text : LinkItem → Str
  | .link l => l.inner ++ b!"]]"
  | .file s => s

def LinkItem.Good (env : ParserEnv) : LinkItem → Prop
  | .link l => l.WellFormed env
  | .file s => ∃ space r, s = space ++ 0x3A :: r ∧ (0x3A : Byte) ∉ space ∧ env.lower space ∈ env.config.list .filePrefixes ∧ (0x5B : Byte) ∉ s

def itemsText : List (LinkItem × Str) → Str
  | [] => []
  | (i, after) :: rest => b!"[[" ++ i.text ++ after ++ itemsText rest

def LinkItem.tokenized (rec : Rec) : LinkItem → TokM Str
  | .link l => do
    let text ← rec l.shown
    newToken b!"INTERNAL_LINK" (.internalLink l.target text)
  | .file s => pure (b!"[[" ++ s)

def tokenizedLinkItems (rec : Rec) : List (LinkItem × Str) → TokM Str
  | [] => pure []
  | (i, after) :: rest => do
    let t ← i.tokenized rec
    let r ← tokenizedLinkItems rec rest
    pure (t ++ after ++ r)

theorem LinkItem.linkFree {env : ParserEnv} {i : LinkItem} (h : i.Good env) {after : Str} (ha : LinkFree after) : LinkFree (i.text ++ after) := by
  cases i with
  | link l => exact item_linkFree h ha
  | file s =>
    obtain ⟨_, _, _, _, _, h5⟩ := h
    intro hi
    rw [LinkItem.text, List.append_assoc] at hi
    exact ha (infix_behind h5 hi)

theorem split_items {env : ParserEnv} (first : Str) (items : List (LinkItem × Str)) (hf : LinkFree first)
    (h : ∀ x ∈ items, x.1.Good env ∧ LinkFree x.2) :
    split (first ++ itemsText items) b!"[[" = first :: items.map fun x => x.1.text ++ x.2 := by
  induction items generalizing first with
  | nil =>
    rw [itemsText, List.append_nil, split_of_not_infix (by simp)]
    · rfl
    · intro hi; exact hf (hi.trans (List.prefix_append _ _).isInfix)
  | cons x rest ih =>
    obtain ⟨i, after⟩ := x
    obtain ⟨hw, ha⟩ := h (i, after) (by simp)
    have e : first ++ itemsText ((i, after) :: rest) = first ++ b!"[[" ++ ((i.text ++ after) ++ itemsText rest) := by
      simp [itemsText]
    rw [e, split_pair _ hf, ih _ (LinkItem.linkFree hw ha) fun x hx => h x (by simp [hx])]
    rfl

theorem linkSegment_item {env : ParserEnv} (rec : Rec) (hp : PlainPrefixes env) {i : LinkItem} (h : i.Good env) (after : Str) :
    linkSegment env rec internalSyntax (i.text ++ after) = (do
      let t ← i.tokenized rec
      pure (t ++ after)) := by
  cases i with
  | link l =>
    rw [LinkItem.text, linkSegment_internal rec hp h, LinkItem.tokenized]
    simp
  | file s =>
    obtain ⟨space, r, rfl, h2, h3, -⟩ := h
    have e : LinkItem.text (.file (space ++ 0x3A :: r)) ++ after = space ++ 0x3A :: (r ++ after) := by simp [LinkItem.text]
    rw [e, linkSegment, if_pos, LinkItem.tokenized, pure_bind]
    · simp [internalSyntax]
    · rw [isFileLink, cut_single _ h2]
      simpa using h3

theorem parseInternalLinks_items {env : ParserEnv} (rec : Rec) (hp : PlainPrefixes env) (first : Str)
    (items : List (LinkItem × Str)) (hf : LinkFree first) (h : ∀ x ∈ items, x.1.Good env ∧ LinkFree x.2) :
    parseInternalLinks env rec (first ++ itemsText items) = (do
      let r ← tokenizedLinkItems rec items
      pure (first ++ r)) := by
  have hs : splitHead (first ++ itemsText items) internalSyntax.opening = (first, items.map fun x => x.1.text ++ x.2) := by
    show (match split (first ++ itemsText items) b!"[[" with | [] => ([], []) | p :: ps => (p, ps)) = _
    rw [split_items first items hf h]
  have hm : ∀ items : List (LinkItem × Str), (∀ x ∈ items, x.1.Good env ∧ LinkFree x.2) →
      (do let segments ← linkSegments env rec internalSyntax (items.map fun x => x.1.text ++ x.2)
          pure segments.flatten) = tokenizedLinkItems rec items := by
    intro items
    induction items with
    | nil => intro _; rfl
    | cons x items ih =>
      obtain ⟨i, after⟩ := x
      intro hl
      have ih := ih fun x hx => hl x (by simp [hx])
      rw [tokenizedLinkItems, ← ih, List.map_cons, linkSegments, linkSegment_item rec hp (hl (i, after) (by simp)).1]
      simp [bind_assoc, List.append_assoc]
  rw [parseInternalLinks, parseLink]
  simp only [hs]
  rw [← hm items h]
  simp

end Verif.Model
