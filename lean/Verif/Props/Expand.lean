import Verif.Lemmas.Expand
import Verif.Model.Article
import Verif.Props.Tokens
import Verif.Props.Wikipedia

/-!
# Expansion of tokens (C28, C29, C53)
-/

namespace Verif.Props
open Verif.Go Verif.Model Verif.Spec
open scoped List

/-! ### C28 -/

/-- What an element is to be replaced by, if it has a replacement: `f` says what tokens are replaced by. -/
def replacement (f : Token → Str) (tokens : List (Str × Token)) : Element → Option Str
  | .marker m => some m.html
  | .token type n => (lookupToken tokens (tokenKey type n)).map f

/-- **C28**, in place: the text of an article is expanded by leaving all ordinary text as it is and replacing each marker
by its tag and each token by its own expansion (`f token`, where `f` is what `expandToken` returns for the tokens that are
in the text). What is missing: texts with two dollar signs in succession or one in front of an element, see
`C29_double_dollar_fails` and `C29_dollar_before_token_fails`. -/
theorem C28_tokens_are_replaced_in_place_partial (env : HtmlEnv) (tokens : List (Str × Token)) (fuel : Nat)
    (pieces : List ElementPiece) (last : Str) (hp : ∀ p ∈ pieces, p.WellFormed) (hl : ¬ b!"$$" <:+: last)
    (f : Token → Str)
    (hf : ∀ p ∈ pieces, ∀ type n token, p.element = .token type n → lookupToken tokens (tokenKey type n) = some token →
      expandToken env (expandString env tokens fuel) token = some (.ok (f token)))
    (html : List Str) (hh : List.Forall₂ (fun p x => replacement f tokens p.element = some x) pieces html) :
    expandString env tokens (fuel + 1) (piecesText pieces last) =
      some (.ok ((List.zipWith (fun p x => p.text ++ x) pieces html).flatten ++ last)) := by
  rw [expandString_pieces env tokens fuel pieces last hp hl]
  induction hh with
  | nil => rfl
  | @cons p x ps xs h hs ih =>
    have ih := ih (fun q hq => hp q (by simp [hq])) (fun q hq => hf q (by simp [hq]))
    have he : expandElement env tokens (expandString env tokens fuel) p.element = (pure x : ExpM Str) := by
      rcases hpe : p.element with m | ⟨t, n⟩
      · rw [hpe] at h
        simp only [replacement, Option.some.injEq] at h
        rw [← h]; rfl
      · rw [hpe] at h
        simp only [replacement, Option.map_eq_some_iff] at h
        obtain ⟨token, h1, h2⟩ := h
        simp only [expandElement, h1]
        rw [hf p (by simp) t n token hpe h1, h2]
        rfl
    rw [expandPieces, he, ExpM.pure_bind]
    have ih' : expandPieces env tokens (expandString env tokens fuel) ps last =
      (pure ((List.zipWith (fun p x => p.text ++ x) ps xs).flatten ++ last) : ExpM Str) := ih
    rw [ih', ExpM.pure_bind]
    show some (Res.ok _) = _
    simp

/-- **C28**, missing definition: if the elements up to some token can be expanded and this token is not defined, the
result is an error. -/
theorem C28_missing_token_is_reported (env : HtmlEnv) (tokens : List (Str × Token)) (fuel : Nat)
    (before after : List ElementPiece) (text type last : Str) (n : Nat)
    (hp : ∀ p ∈ before ++ ⟨text, .token type n⟩ :: after, p.WellFormed) (hl : ¬ b!"$$" <:+: last)
    (hb : ∀ p ∈ before, ∃ x, expandElement env tokens (expandString env tokens fuel) p.element = some (.ok x))
    (hk : lookupToken tokens (tokenKey type n) = none) :
    expandString env tokens (fuel + 1) (piecesText (before ++ ⟨text, .token type n⟩ :: after) last) = some .err := by
  rw [expandString_pieces env tokens fuel _ last hp hl]
  clear hp
  induction before with
  | nil =>
    rw [List.nil_append, expandPieces]
    simp only [expandElement, hk]
    rfl
  | cons p ps ih =>
    obtain ⟨x, hx⟩ := hb p (by simp)
    have hx' : expandElement env tokens (expandString env tokens fuel) p.element = (pure x : ExpM Str) := hx
    rw [List.cons_append, expandPieces, hx', ExpM.pure_bind, ExpM.bind_eq]
    have : expandPieces env tokens (expandString env tokens fuel) (ps ++ ⟨text, .token type n⟩ :: after) last = some .err :=
      ih (fun q hq => hb q (by simp [hq]))
    rw [this]

/-- **C28**, no text is lost: if a text shows the parts `leaves` (text between elements, headings, captions, table cells,
list items on all levels, link texts, footnotes, nowiki, through any nesting of tokens), the expansion comes to an end
and these parts are in the HTML in the same order. What is missing: besides the dollar signs, the text of `StringToken`
is lost, see `C28_text_of_unknown_links_is_lost`. -/
theorem C28_no_text_is_lost_partial (env : HtmlEnv) (tokens : List (Str × Token)) (content : Str) (leaves : List Str)
    (hm : ∀ s, ∃ r, env.math s = .ok r) (h : Visible tokens [content] leaves) :
    ∃ steps, ∀ fuel, steps ≤ fuel → ∃ html, expandString env tokens fuel content = some (.ok html) ∧
      InOrder leaves html := by
  obtain ⟨N, hN⟩ := Visible.expand hm h
  refine ⟨N, fun fuel hf => ?_⟩
  obtain ⟨htmls, y, io⟩ := hN fuel hf
  cases y with
  | @cons _ x _ _ hx hr =>
    cases hr
    exact ⟨x, hx, io x (InOrder.self x)⟩

/-- An environment for the examples. -/
def htmlEnv : HtmlEnv where
  conf := demoConf [b!"commons.wikimedia.org"]
  math := fun _ => .ok (b!"m.png", b!"1ex", b!"2ex", b!"")

/-- A heading with a link, a text with a dollar sign, a list with a sub list and a table within an item. -/
def exampleTokens : List (Str × Token) :=
  [(b!"$$TOKEN_HEADING_0$$", .heading (b!"On " ++ tokenKey b!"INTERNAL_LINK" 1) 2),
   (b!"$$TOKEN_INTERNAL_LINK_1$$", .internalLink b!"Money" b!"money"),
   (b!"$$TOKEN_UNORDERED_LIST_2$$", .list (.mk .unordered
      [.mk .normal b!"one" [.mk .ordered [.mk .normal (tokenKey b!"TABLE" 3) []]], .mk .normal b!"two" []])),
   (b!"$$TOKEN_TABLE_3$$", .table [[⟨[], b!"x", true⟩, ⟨[], b!"y", false⟩]] b!"caption")]

def exampleText : Str := tokenKey b!"HEADING" 0 ++ b!" costs 5 $ " ++ tokenKey b!"UNORDERED_LIST" 2 ++ b!" end"

theorem unambiguous_of {t : Str} (h : contains t b!"$$" = false) (h' : hasSuffix t b!"$" = false)
    (h'' : hasPrefix t b!"M" = false) (h3 : hasPrefix t b!"$M" = false) : Unambiguous t := by
  refine ⟨contains_eq_false_iff.mp h, ?_, ?_⟩
  · rw [← hasSuffix_iff, h']; simp
  · intro m
    constructor
    · rintro rfl; revert h''; cases m <;> decide
    · rintro rfl; revert h3; cases m <;> decide

-- the hypotheses of `C28_no_text_is_lost_partial` can be met
example : Visible exampleTokens [exampleText]
    [b!"", b!"On ", b!"money", b!"", b!" costs 5 $ ", b!"one", b!"", b!"x", b!"y", b!"caption", b!"", b!"two", b!" end"] := by
  have un : ∀ {t : Str}, contains t b!"$$" = false → hasSuffix t b!"$" = false → hasPrefix t b!"M" = false →
    hasPrefix t b!"$M" = false → Unambiguous t := unambiguous_of
  have ni : ∀ {t : Str}, contains t b!"$$" = false → ¬ b!"$$" <:+: t := fun h => contains_eq_false_iff.mp h
  have k0 : lookupToken exampleTokens (tokenKey b!"HEADING" 0) = some (.heading (b!"On " ++ tokenKey b!"INTERNAL_LINK" 1) 2) := by
    rw [show tokenKey b!"HEADING" 0 = b!"$$TOKEN_HEADING_0$$" by decide +kernel]; rfl
  have k1 : lookupToken exampleTokens (tokenKey b!"INTERNAL_LINK" 1) = some (.internalLink b!"Money" b!"money") := by
    rw [show tokenKey b!"INTERNAL_LINK" 1 = b!"$$TOKEN_INTERNAL_LINK_1$$" by decide +kernel]; rfl
  have k2 : lookupToken exampleTokens (tokenKey b!"UNORDERED_LIST" 2) = some (.list (.mk .unordered
      [.mk .normal b!"one" [.mk .ordered [.mk .normal (tokenKey b!"TABLE" 3) []]], .mk .normal b!"two" []])) := by
    rw [show tokenKey b!"UNORDERED_LIST" 2 = b!"$$TOKEN_UNORDERED_LIST_2$$" by decide +kernel]; rfl
  have k3 : lookupToken exampleTokens (tokenKey b!"TABLE" 3) =
      some (.table [[⟨[], b!"x", true⟩, ⟨[], b!"y", false⟩]] b!"caption") := by
    rw [show tokenKey b!"TABLE" 3 = b!"$$TOKEN_TABLE_3$$" by decide +kernel]; rfl
  have hd : Visible exampleTokens [b!"On " ++ tokenKey b!"INTERNAL_LINK" 1 ++ b!""] [b!"On ", b!"money", b!""] :=
    .token (token := .internalLink b!"Money" b!"money") (inner := [b!"money"])
      (un (by decide) (by decide) (by decide) (by decide)) (by decide) k1 (by simp)
      (.last (text := b!"money") (ni (by decide)) .nil) (.last (ni (by decide)) .nil)
  have tb : Visible exampleTokens [b!"x", b!"y", b!"caption"] [b!"x", b!"y", b!"caption"] :=
    .last (ni (by decide)) (.last (ni (by decide)) (.last (ni (by decide)) .nil))
  have li : Visible exampleTokens [b!"one", b!"" ++ tokenKey b!"TABLE" 3 ++ b!"", b!"two"]
      [b!"one", b!"", b!"x", b!"y", b!"caption", b!"", b!"two"] :=
    .last (ni (by decide)) (.token (token := .table [[⟨[], b!"x", true⟩, ⟨[], b!"y", false⟩]] b!"caption") (inner := [b!"x", b!"y", b!"caption"])
      (un (by decide) (by decide) (by decide) (by decide)) (by decide) k3 (by simp) tb
      (.last (ni (by decide)) (.last (ni (by decide)) .nil)))
  have e : exampleText = [] ++ tokenKey b!"HEADING" 0 ++ (b!" costs 5 $ " ++ tokenKey b!"UNORDERED_LIST" 2 ++ b!" end") := by
    simp [exampleText]
  rw [e]
  exact .token (text := []) (token := .heading (b!"On " ++ tokenKey b!"INTERNAL_LINK" 1) 2) (inner := [b!"On ", b!"money", b!""]) (un (by decide) (by decide) (by decide) (by decide)) (by decide) k0 (by simp) (by simpa [tokenTexts] using hd)
    (.token (text := b!" costs 5 $ ") (token := .list (.mk .unordered
      [.mk .normal b!"one" [.mk .ordered [.mk .normal (tokenKey b!"TABLE" 3) []]], .mk .normal b!"two" []])) (inner := [b!"one", b!"", b!"x", b!"y", b!"caption", b!"", b!"two"])
      (un (by decide) (by decide) (by decide) (by decide)) (by decide) k2 (by simp)
      (by simpa [tokenTexts, listTexts, itemsTexts, itemTexts, listsTexts] using li)
      (.last (text := b!" end") (ni (by decide)) .nil))

-- and the HTML
example : (expandString htmlEnv exampleTokens 4 exampleText).run = some (.ok
    b!"<h2>On money</h2> costs 5 $ <ul>\n<li>\none\n<ol>\n<li>\n<div class=\"figure\">\n<table>\n<tr>\n<th>\nx\n</th>\n\n<td>\ny\n</td>\n</tr>\n</table>\n<div class=\"caption\">\ncaption\n</div>\n</div>\n</li>\n</ol>\n</li>\n<li>\ntwo\n</li>\n</ul> end") := by
  decide +kernel

-- the hypotheses of `C28_missing_token_is_reported` can be met
example : (expandString htmlEnv exampleTokens 4 (exampleText ++ tokenKey b!"MATH" 7)).run = some .err := by decide +kernel

/-- **C28** fails for links with a protocol other than http: their text does not appear in the book. -/
theorem C28_text_of_unknown_links_is_lost :
    articleBody tokenizerEnv htmlEnv 60 b!"see [ftp://x foo] bar" = some (.ok b!"see  bar") := by
  decide +kernel

/-! ### C29 -/

/-- **C29** for dollar signs that are not doubled and not directly in front of an element: such texts are kept, whatever
is between them. What is missing: see the following two theorems. -/
theorem C29_single_dollars_are_kept_partial (env : HtmlEnv) (tokens : List (Str × Token)) (fuel : Nat) (text last type : Str)
    (n : Nat) (token : Token) (x : Str) (ht : Unambiguous text) (hl : ¬ b!"$$" <:+: last)
    (hw : type ≠ [] ∧ ∀ c ∈ type, tokenChar c = true) (hk : lookupToken tokens (tokenKey type n) = some token)
    (hx : expandToken env (expandString env tokens fuel) token = some (.ok x)) :
    expandString env tokens (fuel + 1) (text ++ tokenKey type n ++ last) = some (.ok (text ++ x ++ last)) := by
  have := C28_tokens_are_replaced_in_place_partial env tokens fuel [⟨text, .token type n⟩] last
    (by intro p hp; simp at hp; subst hp; exact ⟨ht, hw⟩) hl (fun _ => x)
    (by
      intro p hp type' n' token' he hk'
      simp at hp; subst hp
      simp only [Element.token.injEq] at he
      obtain ⟨rfl, rfl⟩ := he
      rw [hk] at hk'; cases hk'; exact hx)
    [x] (by simp [replacement, hk])
  simpa [piecesText, Element.code] using this

/-- **C29** (text without elements): any text without doubled dollar signs is left as it is. -/
theorem C29_text_is_kept (env : HtmlEnv) (tokens : List (Str × Token)) (fuel : Nat) (text : Str) (h : ¬ b!"$$" <:+: text) :
    expandString env tokens (fuel + 1) text = some (.ok text) := by
  have := C28_tokens_are_replaced_in_place_partial env tokens fuel [] text (by simp) h (fun _ => []) (by simp) [] .nil
  simpa [piecesText] using this

example : (expandString htmlEnv exampleTokens 4 (b!"$5 and $ 3" ++ tokenKey b!"INTERNAL_LINK" 1 ++ b!"$, 4$")).run =
    some (.ok b!"$5 and $ 3money$, 4$") := by decide +kernel

/-- **C29** fails: two dollar signs anywhere in an article with at least one link, image, … make the generation of the
article fail. -/
theorem C29_double_dollar_fails :
    articleBody tokenizerEnv htmlEnv 60 b!"pays 100 $$ in [[Paris]]" = some .err ∧
    articleBody tokenizerEnv htmlEnv 60 b!"in [[Paris]] pays 100 $$" = some .panic ∧
    articleBody tokenizerEnv htmlEnv 60 b!"pays 100 $$ in Paris" = some (.ok b!"pays 100 $$ in Paris") := by
  refine ⟨?_, ?_, ?_⟩ <;> decide +kernel

/-- **C29** fails: one dollar sign directly in front of a link makes the generation of the article fail. -/
theorem C29_dollar_before_token_fails :
    articleBody tokenizerEnv htmlEnv 60 b!"pays $[[100]]" = some .err := by
  decide +kernel

/-! ### C53 -/

/-- A text that shows itself: the recursion never ends. -/
theorem endless (env : HtmlEnv) (tokens : List (Str × Token)) (d : Nat)
    (h : lookupToken tokens b!"$$TOKEN_HEADING_0$$" = some (.heading b!"$$TOKEN_HEADING_0$$" d)) (fuel : Nat) :
    expandString env tokens fuel b!"$$TOKEN_HEADING_0$$" = none := by
  induction fuel with
  | zero => rfl
  | succ fuel ih =>
    have e : b!"$$TOKEN_HEADING_0$$" = piecesText [⟨[], .token b!"HEADING" 0⟩] [] := by decide +kernel
    have w : ∀ p ∈ [(⟨[], .token b!"HEADING" 0⟩ : ElementPiece)], p.WellFormed := by
      intro p hp
      simp at hp; subst hp
      exact ⟨unambiguous_of (by decide) (by decide) (by decide) (by decide), by simp, by decide⟩
    have h1 : tokenKey b!"HEADING" 0 = b!"$$TOKEN_HEADING_0$$" := by decide +kernel
    conv => lhs; rw [e]
    rw [expandString_pieces env tokens fuel _ [] w (by simp), expandPieces]
    simp only [expandElement, h1, h, expandToken]
    rw [ih]
    rfl

/-- Whether the tokenizer turns a text into a heading that contains its own key. -/
def ownKey (content : Str) : Bool :=
  match tokenizeContent tokenizerEnv 60 content TokState.initial with
  | some (.ok (text, s)) => text == b!"$$TOKEN_HEADING_0$$" &&
      match lookupToken s.tokenMap b!"$$TOKEN_HEADING_0$$" with
      | some (.heading c _) => c == b!"$$TOKEN_HEADING_0$$"
      | _ => false
  | _ => false

/-- **C53** fails: an article with the heading `$$TOKEN_HEADING_0$$` is never finished: the generator calls itself over
and over again. -/
theorem C53_heading_with_key_never_ends :
    ∃ s, tokenizeContent tokenizerEnv 60 b!"= $$TOKEN_HEADING_0$$ =" TokState.initial = some (.ok (b!"$$TOKEN_HEADING_0$$", s)) ∧
      ∀ fuel, expandString htmlEnv s.tokenMap fuel b!"$$TOKEN_HEADING_0$$" = none := by
  have h : ownKey b!"= $$TOKEN_HEADING_0$$ =" = true := by decide +kernel
  unfold ownKey at h
  split at h
  · rename_i text s hs
    simp only [Bool.and_eq_true, beq_iff_eq] at h
    obtain ⟨h1, h2⟩ := h
    split at h2
    · rename_i c d hd
      rw [beq_iff_eq] at h2
      rw [h1] at hs
      exact ⟨s, hs, endless htmlEnv s.tokenMap d (h2 ▸ hd)⟩
    · exact absurd h2 (by simp)
  · exact absurd h (by simp)

/-- **C53** fails: text that looks like an internal marker or key is taken as one. -/
theorem C53_text_is_taken_as_key :
    articleBody tokenizerEnv htmlEnv 60 b!"the text $$MARKER_BOLD_OPEN$$ is shown" = some (.ok b!"the text <b> is shown") ∧
    articleBody tokenizerEnv htmlEnv 60 b!"the text $$TOKEN_A_1$$ is shown" = some .err := by
  constructor <;> decide +kernel

end Verif.Props
