import Verif.Lemmas.EmptySections
import Verif.Lemmas.DocClean
import Verif.Lemmas.Comments
import Verif.Lemmas.Padding
import Verif.Props.CleanTemplates
import Verif.Spec.Hidden
import Verif.Spec.HiddenSections

/-!
# Parts of an article that are not shown
-/

namespace Verif.Model
open Verif.Go Verif.Spec Verif.Lemmas Verif.Props
open scoped List

/-! ### Comments -/

theorem removeComments_first {a body rest : Str} (ha : ¬ b!"<!--" <:+: a) (hb : SourcePart.CommentBody body) :
    removeComments (a ++ SourcePart.commentText body ++ rest) = dropTrailingNewline a ++ removeComments rest := by
  obtain ⟨h1, h2, h3⟩ := hb
  have hne := split_ne_nil rest (sep := b!"-->") (by simp)
  -- no end of a comment before
  have base : ∀ a : Str, ¬ b!"<!--" <:+: a → ¬ b!"-->" <:+: a →
      removeComments (a ++ SourcePart.commentText body ++ rest) = dropTrailingNewline a ++ removeComments rest := by
    intro a ha he
    have hn : ¬ b!"-->" <:+: a ++ b!"<!--" ++ body := by
      intro hi
      rw [List.append_assoc, List.cons_append] at hi
      rcases infix_over (c := (0x3C : Byte)) (by simp) (by decide) hi with hi | hi
      · exact he hi
      rw [List.cons_append, List.cons_append, List.cons_append, List.nil_append] at hi
      rw [List.infix_cons_iff, List.infix_cons_iff, List.infix_cons_iff] at hi
      rcases hi with hi | hi | hi | hi
      · simp [List.cons_prefix_cons] at hi
      · simp only [List.cons_prefix_cons, true_and] at hi
        exact h2 (by simpa [List.cons_prefix_cons] using hi)
      · simp only [List.cons_prefix_cons, true_and] at hi
        exact h3 hi
      · exact h1 hi
    have e : a ++ SourcePart.commentText body ++ rest = (a ++ b!"<!--" ++ body) ++ b!"-->" ++ rest := by simp [SourcePart.commentText]
    rw [removeComments, e, noBorder_end.split_append rest hn, removeComments]
    obtain ⟨x, xs, ex⟩ := List.exists_cons_of_ne_nil hne
    rw [ex, commentSegments, noBorder_start.split_append body ha]
    cases hb : split body b!"<!--" with
    | nil => exact absurd hb (split_ne_nil _ (by simp))
    | cons y ys => rfl
  induction hl : a.length using Nat.strong_induction_on generalizing a with
  | _ n ih =>
  by_cases he : b!"-->" <:+: a
  · obtain ⟨x, y, e, hx⟩ := exists_first (by simp) he
    subst e
    have hy : ¬ b!"<!--" <:+: y := fun hi => ha (hi.trans (List.suffix_append _ _).isInfix)
    have hx' : ¬ b!"<!--" <:+: x := fun hi => ha (hi.trans ⟨[], b!"-->" ++ y, by simp⟩)
    have e : x ++ b!"-->" ++ y ++ SourcePart.commentText body ++ rest = x ++ b!"-->" ++ (y ++ SourcePart.commentText body ++ rest) := by simp
    have ih := ih y.length (by simp at hl; omega) hy rfl
    rw [removeComments] at ih
    rw [removeComments, e, noBorder_end.split_append _ hx]
    obtain ⟨z, zs, ez⟩ := List.exists_cons_of_ne_nil (split_ne_nil (y ++ SourcePart.commentText body ++ rest) (sep := b!"-->") (by simp))
    rw [ez] at ih ⊢
    rw [commentSegments, split_of_not_infix (by simp) hx', ih]
    have : dropTrailingNewline (x ++ b!"-->" ++ y) = x ++ b!"-->" ++ dropTrailingNewline y := dropLineBreak_append (post := []) (by simp) (by simp)
    rw [this]
    simp
  · exact base a ha he

theorem removeComments_none {s : Str} (h : ¬ b!"<!--" <:+: s) : removeComments s = s := by
  rw [removeComments, commentSegments_calm, join_split_self s (by simp)]
  intro p hp hi
  exact h (hi.trans (infix_of_mem_split (by simp) hp))

/-! ### The text without some parts -/

/-- The text without comments. -/
def part1 : SourcePart → Str
  | .comment _ => []
  | .commentLine _ => []
  | p => p.source

/-- The text without comments and links. -/
def part2 : SourcePart → Str
  | .link _ => []
  | p => part1 p

/-- The text without comments, links and templates. -/
def part3 : SourcePart → Str
  | .template _ _ _ => []
  | p => part2 p

theorem last_kept_part {α : Type} (f g : α → Str) (x : Byte) (l : List α) (h : ∀ a ∈ l, (f a) = g a ∨ ((f a).getLast? ≠ some x ∧ g a = []))
    (hx : (l.flatMap g).getLast? ≠ some x) : (l.flatMap f).getLast? ≠ some x := by
  induction l using List.reverseRecOn with
  | nil => simp
  | append_singleton l a ih =>
    rw [List.flatMap_append, List.flatMap_singleton] at hx ⊢
    rcases h a (by simp) with e | ⟨e1, e2⟩
    · by_cases hg : g a = []
      · rw [e, hg, List.append_nil]
        rw [hg, List.append_nil] at hx
        exact ih (fun b hb => h b (by simp [hb])) hx
      · rw [e, List.getLast?_append_of_ne_nil _ hg]
        rwa [List.getLast?_append_of_ne_nil _ hg] at hx
    · by_cases hf : f a = []
      · rw [hf, List.append_nil]
        rw [e2, List.append_nil] at hx
        exact ih (fun b hb => h b (by simp [hb])) hx
      · rwa [List.getLast?_append_of_ne_nil _ hf]

variable {r : LinkRules} {ignored : Str → Prop}

/-- The text of a template begins and ends with a brace. -/
theorem template_text (lead name : Str) (args : TemplateText) :
    (TemplateText.template lead name args .nil).text = 0x7B :: (b!"{" ++ lead ++ name ++ args.text ++ b!"}" ++ [0x7D]) := by
  simp [TemplateText.text]

/-- No comment begins in the text without comments. -/
theorem part1_calm (parts : List SourcePart) (hw : ∀ p ∈ parts, p.WellFormed r ignored) : ∀ a : Str, ¬ b!"<!--" <:+: a ++ keptText parts →
    ¬ b!"<!--" <:+: a ++ parts.flatMap part1 := by
  induction parts with
  | nil => exact fun a h => h
  | cons p parts ih =>
    intro a h
    have ih := ih fun q hq => hw q (by simp [hq])
    have hp := hw p (by simp)
    rw [List.flatMap_cons]
    have hframe : ∀ (x y : Byte) (m : Str), x ∉ b!"<!--" → y ∉ b!"<!--" → part1 p = x :: (m ++ [y]) → ¬ b!"<!--" <:+: part1 p → p.kept = [] →
        ¬ b!"<!--" <:+: a ++ (part1 p ++ parts.flatMap part1) := by
      intro x y m hx hy e hi hk
      have hk' : keptText (p :: parts) = keptText parts := by rw [keptText, List.flatMap_cons, hk, List.nil_append]; rfl
      rw [hk'] at h
      have h0 := ih [] fun hh => h (hh.trans (List.suffix_append _ _).isInfix)
      have ha : ¬ b!"<!--" <:+: a := fun hh => h (hh.trans (List.prefix_append _ _).isInfix)
      intro hh
      rw [e, List.cons_append, List.append_assoc] at hh
      rcases infix_over (by simp) hx hh with hh | hh
      · exact ha hh
      rcases infix_over (by simp) hy hh with hh | hh
      · refine hi (hh.trans ?_)
        rw [e]
        exact ⟨[x], [y], by simp⟩
      · exact h0 hh
    cases p with
    | shown t =>
      have e : keptText (.shown t :: parts) = t ++ keptText parts := by simp [keptText, SourcePart.kept]
      rw [e, ← List.append_assoc] at h
      have := ih (a ++ t) h
      simpa [part1, SourcePart.source] using this
    | comment body => exact ih a h
    | commentLine body => exact ih a h
    | link inner =>
      refine hframe 0x5B 0x5D (b!"[" ++ inner.text ++ b!"]") (by decide) (by decide) (by simp [part1, SourcePart.source]) ?_ rfl
      intro hi
      have e : part1 (.link inner) = b!"[[" ++ (inner.text ++ 0x5D :: [0x5D]) := by simp [part1, SourcePart.source]
      rw [e] at hi
      have hi := infix_behind (by decide) hi
      rcases infix_over (by simp) (by decide) hi with hi | hi
      · exact hp.2.2.2 hi
      · exact absurd hi (by decide)
    | template lead name args =>
      refine hframe 0x7B 0x7D (b!"{" ++ lead ++ name ++ args.text ++ b!"}") (by decide) (by decide) ?_ hp.2.2.1 rfl
      exact template_text lead name args
    | noToc => exact hframe 0x5F 0x5F b!"_NOTOC_" (by decide) (by decide) rfl (by decide) rfl

theorem hidden_comments (parts : List SourcePart) (hw : ∀ p ∈ parts, p.WellFormed r ignored) : ∀ (before : List SourcePart) (a : Str),
    (∀ pre p post, parts = pre ++ p :: post → p.FitsBetween (before ++ pre) post) → a <:+ sourceText before → ¬ b!"<!--" <:+: a ++ parts.flatMap part1 →
    removeComments (a ++ sourceText parts) = a ++ parts.flatMap part1 := by
  induction parts with
  | nil => exact fun before a _ _ h => removeComments_none h
  | cons p parts ih =>
    intro before a hp ha h
    have ih := ih fun q hq => hw q (by simp [hq])
    have hp' : ∀ pre q post, parts = pre ++ q :: post → q.FitsBetween ((before ++ [p]) ++ pre) post := by
      intro pre q post e
      have := hp (p :: pre) q post (by rw [e]; rfl)
      simpa using this
    have hfit := hp [] p parts rfl
    rw [List.append_nil] at hfit
    have hsrc : sourceText (before ++ [p]) = sourceText before ++ p.source := by simp [sourceText]
    have hcons : sourceText (p :: parts) = p.source ++ sourceText parts := by simp [sourceText]
    rw [List.flatMap_cons] at h ⊢
    rw [hcons]
    -- parts that are no comments
    have hkeep : part1 p = p.source → removeComments (a ++ (p.source ++ sourceText parts)) = a ++ (part1 p ++ parts.flatMap part1) := by
      intro e
      rw [e, ← List.append_assoc] at h
      rw [e, ← List.append_assoc, ← List.append_assoc]
      refine ih (before ++ [p]) (a ++ p.source) hp' ?_ h
      rw [hsrc]
      obtain ⟨x, e⟩ := ha
      exact ⟨x, by rw [← e]; simp⟩
    have hnil : removeComments (sourceText parts) = parts.flatMap part1 ∨ part1 p ≠ [] := by
      by_cases e : part1 p = []
      · left
        rw [e, List.nil_append] at h
        have := ih (before ++ [p]) [] hp' List.nil_suffix fun hi => h (hi.trans (List.suffix_append _ _).isInfix)
        simpa using this
      · exact Or.inr e
    have ha1 : ¬ b!"<!--" <:+: a := fun hi => h (hi.trans (List.prefix_append _ _).isInfix)
    cases p with
    | shown t => exact hkeep rfl
    | link inner => exact hkeep rfl
    | template lead name args => exact hkeep rfl
    | noToc => exact hkeep rfl
    | comment body =>
      have hb := hw (.comment body) (by simp)
      have e : removeComments (a ++ ((SourcePart.comment body).source ++ sourceText parts)) = dropTrailingNewline a ++ removeComments (sourceText parts) := by
        rw [← List.append_assoc]
        exact removeComments_first ha1 hb
      rw [e, dropTrailingNewline, if_neg, hnil.resolve_right (by simp [part1])]
      · rfl
      · intro hl
        obtain ⟨x, e⟩ := ha
        have hne : a ≠ [] := by rintro rfl; simp at hl
        apply hfit
        rw [← e, List.getLast?_append_of_ne_nil _ hne, hl]
    | commentLine body =>
      have hb := hw (.commentLine body) (by simp)
      have hn : ¬ b!"<!--" <:+: a ++ b!"\n" := fun hi => ha1 (infix_before (by simp) (by decide) hi)
      have e : removeComments (a ++ ((SourcePart.commentLine body).source ++ sourceText parts)) = dropTrailingNewline (a ++ b!"\n") ++ removeComments (sourceText parts) := by
        have e : a ++ ((SourcePart.commentLine body).source ++ sourceText parts) = (a ++ b!"\n") ++ SourcePart.commentText body ++ sourceText parts := by
          simp [SourcePart.source]
        rw [e]
        exact removeComments_first hn hb
      rw [e, dropTrailingNewline, if_pos (by simp), List.dropLast_concat, hnil.resolve_right (by simp [part1])]
      rfl

/-! ### Links -/

theorem linkLoop_length (env : ParserEnv) : ∀ (s : Str) (k : Nat) (t : Str), linkLoop env s k = .ok t → t.length ≤ s.length := by
  intro s
  induction s with
  | nil =>
    intro k t h
    cases k <;> (cases h; simp)
  | cons c s ih =>
    intro k t h
    cases k with
    | succ k =>
      have := ih k t h
      simp only [List.length_cons]
      omega
    | zero =>
      have hbind : ∀ u : Res Str, (∀ v, u = .ok v → v.length ≤ s.length) → (do let rest ← u; .ok (c :: rest)) = .ok t → t.length ≤ (c :: s).length := by
        intro u hu h
        cases u with
        | ok v =>
          cases h
          have := hu v rfl
          simpa using this
        | err => cases h
        | panic => cases h
        | fatal => cases h
      rw [linkLoop] at h
      split at h
      · cases h; exact Nat.le_refl _
      split at h
      · split at h
        · cases h
        · split at h
          · split at h
            · have := ih _ t h
              simp only [List.length_cons]
              omega
            · cases h
          · exact hbind _ (fun v hv => ih 0 v hv) h
      · exact hbind _ (fun v hv => ih 0 v hv) h

/-- The closing bracket is found in the first text, whatever is behind it. -/
theorem close_within (p : Str) : ∀ (t u : Str) (i k : Nat), p.count 0x5B + k + 2 ≤ p.count 0x5D →
    ∃ e, e + 2 ≤ i + p.length ∧ closeLoop false b!"[" b!"]" (p ++ t) 0 i k = some e ∧ closeLoop false b!"[" b!"]" (p ++ u) 0 i k = some e := by
  induction p with
  | nil => intro t u i k h; simp at h
  | cons c p ih =>
    intro t u i k h
    simp only [List.cons_append, List.length_cons]
    by_cases h1 : c = 0x5B
    · subst h1
      rw [List.count_cons_self, List.count_cons_of_ne (by decide)] at h
      obtain ⟨e, he, h2, h3⟩ := ih t u (i + 1) (k + 1) (by omega)
      exact ⟨e, by omega, by rw [close_open, h2], by rw [close_open, h3]⟩
    by_cases h2 : c = 0x5D
    · subst h2
      rw [List.count_cons_self, List.count_cons_of_ne (by decide)] at h
      by_cases hk : k = 0
      · subst hk
        refine ⟨i, ?_, by rw [close_close, if_pos rfl], by rw [close_close, if_pos rfl]⟩
        have : 0 < p.count 0x5D := by omega
        have := List.count_pos_iff.mp this
        have := List.length_pos_of_mem this
        omega
      · obtain ⟨e, he, h3, h4⟩ := ih t u (i + 1) (k - 1) (by omega)
        exact ⟨e, by omega, by rw [close_close, if_neg hk, h3], by rw [close_close, if_neg hk, h4]⟩
    · rw [List.count_cons_of_ne h1, List.count_cons_of_ne h2] at h
      obtain ⟨e, he, h3, h4⟩ := ih t u (i + 1) k (by omega)
      exact ⟨e, by omega, by rw [close_other _ _ _ h1 h2, h3], by rw [close_other _ _ _ h1 h2, h4]⟩

theorem bind_cons_ok {c : Byte} {u : Res Str} {v : Str} (h : (do let rest ← u; .ok (c :: rest)) = (.ok (c :: v) : Res Str)) : u = .ok v := by
  cases u with
  | ok w => cases h; rfl
  | err => cases h
  | panic => cases h
  | fatal => cases h

/-- What is behind a text without open brackets does not matter for the links in it. -/
theorem linkLoop_closed (env : ParserEnv) (p : Str) : ∀ q : Str, BracketsClosed p → linkLoop env (p ++ q) 0 = .ok (p ++ q) →
    linkLoop env q 0 = .ok q ∧ ∀ t u, linkLoop env t 0 = .ok u → linkLoop env (p ++ t) 0 = .ok (p ++ u) := by
  induction p with
  | nil => exact fun q _ h => ⟨h, fun t u h => h⟩
  | cons c p ih =>
    intro q hc h
    have hcp : BracketsClosed p := fun t ht => hc t (ht.trans (List.suffix_cons c p))
    by_cases hb : b!"[[" <+: c :: (p ++ q)
    · obtain ⟨rfl, hb2⟩ := List.cons_prefix_cons.mp hb
      have hcount := hc _ (List.suffix_refl _)
      cases p with
      | nil => simp at hcount
      | cons d p =>
        obtain ⟨rfl, _⟩ := List.cons_prefix_cons.mp hb2
        rw [List.count_cons_self, List.count_cons_self, List.count_cons_of_ne (by decide), List.count_cons_of_ne (by decide)] at hcount
        -- one step of the loop
        have step : ∀ t : Str, ∃ e, e + 2 ≤ 2 + p.length ∧
            findClose (0x5B :: 0x5B :: (p ++ t)) 2 b!"[" b!"]" = some e ∧ findClose (0x5B :: 0x5B :: (p ++ q)) 2 b!"[" b!"]" = some e := by
          intro t
          obtain ⟨e, he, h1, h2⟩ := close_within p t q 2 0 (by omega)
          exact ⟨e, he, h1, h2⟩
        have htake : ∀ (t : Str) (e : Nat), e + 2 ≤ 2 + p.length → (((0x5B : Byte) :: 0x5B :: (p ++ t)).take e).drop 2 = p.take (e - 2) := by
          intro t e he
          rw [List.drop_take]
          show (p ++ t).take (e - 2) = _
          rw [List.take_append_of_le_length (by omega)]
        -- the link is wanted
        obtain ⟨e0, he0, _, hq0⟩ := step q
        have hlong : ∀ t : Str, ¬ ((0x5B : Byte) :: 0x5B :: (p ++ t)).length ≤ 2 := by
          intro t
          have : 0 < p.count 0x5D := by omega
          have := List.length_pos_of_mem (List.count_pos_iff.mp this)
          simp only [List.length_cons, List.length_append]
          omega
        have hpre : ∀ t : Str, hasPrefix ((0x5B : Byte) :: 0x5B :: (p ++ t)) b!"[[" = true := by
          intro t
          rw [hasPrefix_iff]
          exact ⟨p ++ t, rfl⟩
        have hw : isUnwantedLink env (p.take (e0 - 2)) = false := by
          rw [← Bool.not_eq_true]
          intro hu
          show False
          have h' : linkLoop env (0x5B :: 0x5B :: (p ++ q)) 0 = .ok (0x5B :: 0x5B :: (p ++ q)) := h
          rw [linkLoop, if_neg (hlong q), if_pos (hpre q), hq0] at h'
          simp only [htake q e0 he0] at h'
          rw [if_pos hu, if_pos (by simp; omega)] at h'
          have := linkLoop_length env _ _ _ h'
          simp at this
          omega
        have one : ∀ t : Str, linkLoop env (0x5B :: 0x5B :: (p ++ t)) 0 = (do let rest ← linkLoop env (0x5B :: (p ++ t)) 0; .ok (0x5B :: rest)) := by
          intro t
          obtain ⟨e, he, h1, h2⟩ := step t
          rw [hq0] at h2
          cases h2
          rw [linkLoop, if_neg (hlong t), if_pos (hpre t), h1]
          simp only [htake t e0 he0]
          rw [if_neg (by simp [hw])]
        have h' : linkLoop env (0x5B :: 0x5B :: (p ++ q)) 0 = .ok (0x5B :: 0x5B :: (p ++ q)) := h
        rw [one q] at h'
        obtain ⟨i1, i2⟩ := ih q hcp (bind_cons_ok h')
        refine ⟨i1, fun t u htu => ?_⟩
        show linkLoop env (0x5B :: 0x5B :: (p ++ t)) 0 = _
        rw [one t]
        have := i2 t u htu
        rw [List.cons_append] at this
        rw [this]
        rfl
    · have hb' : ∀ t : Str, ¬ b!"[[" <+: c :: (p ++ t) := by
        intro t hh
        apply hb
        rw [List.cons_prefix_cons] at hh ⊢
        refine ⟨hh.1, ?_⟩
        cases p with
        | nil =>
          exfalso
          have hcount := hc _ (List.suffix_refl _)
          rw [← hh.1] at hcount
          simp at hcount
        | cons d p =>
          simpa [List.cons_prefix_cons] using hh.2
      rw [List.cons_append, linkLoop_char env c _ hb] at h
      obtain ⟨i1, i2⟩ := ih q hcp (bind_cons_ok h)
      refine ⟨i1, fun t u htu => ?_⟩
      rw [List.cons_append, linkLoop_char env c _ (hb' t), i2 t u htu]
      rfl

theorem closed_suffix {s t : Str} (h : BracketsClosed s) (ht : t <:+ s) : BracketsClosed t := fun u hu => h u (hu.trans ht)

theorem hiddenTemplate_kept {env : ParserEnv} {lead name : Str} {args : TemplateText}
    (h : (SourcePart.template lead name args).WellFormed (linkRules env) ignored) {t u : Str} (ht : linkLoop env t 0 = .ok u) :
    linkLoop env ((TemplateText.template lead name args .nil).text ++ t) 0 = .ok ((TemplateText.template lead name args .nil).text ++ u) := by
  obtain ⟨_, _, _, d, e, hw, hl⟩ := h
  have hno : ∀ d : LinkText, d.without (fun _ => False) = d := by
    intro d
    induction d with
    | nil => rfl
    | char c rest ih => rw [LinkText.without, ih]
    | bracket i rest ih1 ih2 => rw [LinkText.without, ih1, ih2]
    | link i rest ih1 ih2 => rw [LinkText.without, if_neg (by simp), ih1, ih2]
  have := linkLoop_text env (fun _ => False) d hw (allLinks_imp (fun s hs => by
    rw [isUnwantedLink_iff env s fun hm => absurd hm hs.2]
    simp [hs.1]) d hl) t
  rw [e, ht, hno, e] at this
  exact this

theorem hidden_links (env : ParserEnv) (parts : List SourcePart) (hw : ∀ p ∈ parts, p.WellFormed (linkRules env) ignored) : ∀ (before : List SourcePart) (a : Str),
    (∀ pre p post, parts = pre ++ p :: post → p.FitsBetween (before ++ pre) post) → a <:+ keptText before →
    linkLoop env (a ++ keptText parts) 0 = .ok (a ++ keptText parts) →
    linkLoop env (a ++ parts.flatMap part1) 0 = .ok (a ++ parts.flatMap part2) := by
  induction parts with
  | nil => exact fun before a _ _ h => h
  | cons p parts ih =>
    intro before a hp ha h
    have ih := ih fun q hq => hw q (by simp [hq])
    have hp' : ∀ pre q post, parts = pre ++ q :: post → q.FitsBetween ((before ++ [p]) ++ pre) post := by
      intro pre q post e
      have := hp (p :: pre) q post (by rw [e]; rfl)
      simpa using this
    have hfit := hp [] p parts rfl
    rw [List.append_nil] at hfit
    have hkb : keptText (before ++ [p]) = keptText before ++ p.kept := by simp [keptText]
    have hcons : keptText (p :: parts) = p.kept ++ keptText parts := by simp [keptText]
    rw [hcons] at h
    rw [List.flatMap_cons, List.flatMap_cons]
    -- parts behind which no bracket is open
    have hcut : p.kept = [] → BracketsClosed (keptText before) →
        (∀ t u, linkLoop env t 0 = .ok u → linkLoop env (part1 p ++ t) 0 = .ok (part2 p ++ u)) →
        linkLoop env (a ++ (part1 p ++ parts.flatMap part1)) 0 = .ok (a ++ (part2 p ++ parts.flatMap part2)) := by
      intro hk hb hpart
      rw [hk, List.nil_append] at h
      obtain ⟨h1, h2⟩ := linkLoop_closed env a _ (closed_suffix hb ha) h
      exact h2 _ _ (hpart _ _ (ih (before ++ [p]) [] hp' List.nil_suffix h1))
    have hskip : p.kept = [] → linkLoop env (a ++ parts.flatMap part1) 0 = .ok (a ++ parts.flatMap part2) := by
      intro hk
      refine ih (before ++ [p]) a hp' (by rw [hkb, hk, List.append_nil]; exact ha) ?_
      rw [hk, List.nil_append] at h
      exact h
    cases p with
    | shown t =>
      have := ih (before ++ [.shown t]) (a ++ t) hp' (by
        rw [hkb]
        obtain ⟨x, e⟩ := ha
        exact ⟨x, by rw [← e]; simp [SourcePart.kept]⟩) (by simpa [SourcePart.kept] using h)
      simpa [part1, part2, SourcePart.source] using this
    | comment body => exact hskip rfl
    | commentLine body => exact hskip rfl
    | link inner =>
      obtain ⟨w1, w2, w3, _⟩ := hw (.link inner) (by simp)
      refine hcut rfl hfit fun t u htu => ?_
      show linkLoop env (b!"[[" ++ inner.text ++ b!"]]" ++ t) 0 = .ok u
      rw [linkLoop_link env inner t w1 w2, if_pos, htu]
      exact (isUnwantedLink_iff env _ fun _ => Or.inr (Or.inr w3)).mpr w3
    | template lead name args =>
      exact hcut rfl hfit.1 fun t u htu => hiddenTemplate_kept (hw (.template lead name args) (by simp)) htu
    | noToc =>
      refine hcut rfl hfit.1 fun t u htu => ?_
      exact (linkLoop_closed env b!"__NOTOC__" [] (by unfold BracketsClosed; intro t ht; have : (0x5B : Byte) ∉ t := fun hm => absurd (ht.subset hm) (by decide); rw [List.count_eq_zero_of_not_mem this]; omega)
        (linkLoop_calm env _ (by decide))).2 t u htu

/-! ### Templates -/

theorem part3_pairs (parts : List SourcePart) : ∀ a : Str, ¬ b!"{{" <:+: a ++ keptText parts → ¬ b!"{{" <:+: a ++ parts.flatMap part3 := by
  induction parts with
  | nil => exact fun a h => h
  | cons p parts ih =>
    intro a h
    rw [List.flatMap_cons]
    cases p with
    | shown t =>
      have e : keptText (.shown t :: parts) = t ++ keptText parts := by simp [keptText, SourcePart.kept]
      rw [e, ← List.append_assoc] at h
      have := ih (a ++ t) h
      simpa [part1, part2, part3, SourcePart.source] using this
    | comment body => exact ih a h
    | commentLine body => exact ih a h
    | link inner => exact ih a h
    | template lead name args => exact ih a h
    | noToc =>
      have h : ¬ b!"{{" <:+: a ++ keptText parts := h
      have h0 := ih [] fun hh => h (hh.trans (List.suffix_append _ _).isInfix)
      have ha : ¬ b!"{{" <:+: a := fun hh => h (hh.trans (List.prefix_append _ _).isInfix)
      refine no_pair_append ha (Or.inr (by simp [part3, part2, part1, SourcePart.source])) ?_
      exact no_pair_append (x := b!"__NOTOC__") (by decide) (Or.inl (by decide)) h0

theorem hidden_templates (env : ParserEnv) (parts : List SourcePart)
    (hw : ∀ p ∈ parts, p.WellFormed r (fun n => IsIgnored env n = true ∧ IsTrailing env n = false)) : ∀ (before : List SourcePart) (i : Nat),
    (∀ pre p post, parts = pre ++ p :: post → p.FitsBetween (before ++ pre) post) → i ≤ (before.flatMap part3).length →
    ¬ b!"{{" <:+: before.flatMap part3 ++ parts.flatMap part3 →
    ∃ i', Reach env (before.flatMap part3 ++ parts.flatMap part2) i [] (before.flatMap part3 ++ parts.flatMap part3) i' [] := by
  induction parts with
  | nil => exact fun before i _ _ _ => ⟨i, .refl⟩
  | cons p parts ih =>
    intro before i hp hi h
    have ih := ih fun q hq => hw q (by simp [hq])
    have hp' : ∀ pre q post, parts = pre ++ q :: post → q.FitsBetween ((before ++ [p]) ++ pre) post := by
      intro pre q post e
      have := hp (p :: pre) q post (by rw [e]; rfl)
      simpa using this
    have hfit := hp [] p parts rfl
    rw [List.append_nil] at hfit
    rw [List.flatMap_cons] at h ⊢
    rw [List.flatMap_cons]
    have hb : (before ++ [p]).flatMap part3 = before.flatMap part3 ++ part3 p := by simp
    have hkeep : part2 p = part3 p →
        ∃ i', Reach env (before.flatMap part3 ++ (part2 p ++ parts.flatMap part2)) i [] (before.flatMap part3 ++ (part3 p ++ parts.flatMap part3)) i' [] := by
      intro e
      rw [e, ← List.append_assoc, ← List.append_assoc, ← hb]
      refine ih (before ++ [p]) i hp' (by rw [hb, List.length_append]; omega) ?_
      rwa [hb, List.append_assoc]
    cases p with
    | shown t => exact hkeep rfl
    | comment body => exact hkeep rfl
    | commentLine body => exact hkeep rfl
    | link inner => exact hkeep rfl
    | noToc => exact hkeep rfl
    | template lead name args =>
      obtain ⟨⟨w1, w2, w3, w4, w5, _⟩, ⟨wi, wt⟩, _, _⟩ := hw (.template lead name args) (by simp)
      have hr : removesTemplate env (normName env name) = true := by
        rw [removesTemplate, Bool.or_eq_true]
        left
        rw [hasAnyPrefix, List.any_eq_true]
        refine ⟨normName env name, ?_, hasPrefix_iff.mpr (List.prefix_refl _)⟩
        simpa [IsIgnored, normName] using wi
      have hnt : normName env name ∉ (env.config.list .trailingTemplates).map env.lower := by
        simpa [IsTrailing, normName] using wt
      have hn : ¬ b!"{{" <:+: before.flatMap part3 := fun hh => h (hh.trans (List.prefix_append _ _).isInfix)
      have hlast : (before.flatMap part3).getLast? ≠ some 0x7B := by
        refine last_kept_part part3 SourcePart.kept 0x7B before (fun q _ => ?_) hfit.2
        cases q with
        | noToc => exact Or.inr ⟨by decide, rfl⟩
        | _ => exact Or.inl rfl
      generalize before.flatMap part3 = a at *
      generalize hrest : parts.flatMap part2 = rest at *
      have et : part2 (.template lead name args) = templateStr lead name args.text := by simp [part2, part1, SourcePart.source, TemplateText.text, templateStr]
      rw [et]
      have hga : GoodName lead name := ⟨w1, w2, w3⟩
      have hwa : args.WellFormed (b!"}}" ++ rest) := wellFormed_after (c := 0x7D) (a := [0x7D]) (0x7D :: rest) (by simpa [TemplateText.text] using w5)
      -- no template begins before
      have hfree : ∀ j < a.length, ¬ b!"{{" <+: (a ++ (templateStr lead name args.text ++ rest)).drop j := by
        intro j hj hh
        rw [List.drop_append_of_le_length (by omega)] at hh
        have hne : a.drop j ≠ [] := by simp; omega
        obtain ⟨x, y, e⟩ := List.exists_cons_of_ne_nil hne
        cases y with
        | nil =>
          rw [e] at hh
          obtain ⟨rfl, _⟩ := List.cons_prefix_cons.mp hh
          apply hlast
          have : a = a.take j ++ [0x7B] := by rw [← e, List.take_append_drop]
          rw [this]
          simp
        | cons y z =>
          rw [e] at hh
          simp only [List.cons_append, List.cons_prefix_cons] at hh
          apply hn
          refine (List.IsPrefix.isInfix ?_).trans (List.drop_suffix j a).isInfix
          rw [e, ← hh.1, ← hh.2.1]
          exact ⟨z, rfl⟩
      have r1 : Reach env (a ++ (templateStr lead name args.text ++ rest)) i [] (a ++ (templateStr lead name args.text ++ rest)) a.length [] := by
        have := reach_chars (env := env) (c := a ++ (templateStr lead name args.text ++ rest)) (i := i) (n := a.length - i) (f := [])
          fun j hj => removableAt_char (hfree _ (by omega))
        rwa [Nat.add_sub_cancel' hi] at this
      have r2 : Reach env (a ++ (templateStr lead name args.text ++ rest)) a.length [] (a ++ rest) a.length [] := by
        refine ⟨1, fun fuel => ?_⟩
        have hlen : (templateStr lead name args.text).length ≥ 2 := by simp [templateStr]
        rw [templateLoop_step _ _ _ _ _ (by simp; omega), List.drop_left, removableAt_remove hga hr w4 hwa]
        simp only [List.take_left, hnt, if_false]
        rw [← List.append_assoc, replaceFirst_append]
        · intro h0; rw [h0] at hlen; simp at hlen
        · intro j hj hh
          refine hfree j hj (List.IsPrefix.trans ?_ (by rwa [List.append_assoc] at hh))
          exact ⟨lead ++ name ++ args.text ++ b!"}}", by simp [templateStr]⟩
      have hb' : part3 (.template lead name args) = [] := rfl
      rw [hb', List.append_nil] at hb
      obtain ⟨i', r3⟩ := ih (before ++ [.template lead name args]) a.length hp' (by rw [hb]) (by rw [hb]; exact h)
      rw [hb] at r3
      exact ⟨i', (r1.trans r2).trans r3⟩

theorem templates_removed (env : ParserEnv) (parts : List SourcePart)
    (hw : ∀ p ∈ parts, p.WellFormed r (fun n => IsIgnored env n = true ∧ IsTrailing env n = false)) (hp : WellPlaced parts)
    (h : ¬ b!"{{" <:+: parts.flatMap part3) : handleUnwantedAndTrailingTemplates env (parts.flatMap part2) = parts.flatMap part3 := by
  obtain ⟨i', k, hr⟩ := hidden_templates env parts hw [] 0 (fun pre p post e => by simpa using hp pre p post e) (by simp) (by simpa using h)
  simp only [List.flatMap_nil, List.nil_append] at hr
  have hfin := hr (parts.flatMap part2).length
  rw [templateLoop_calm env h, templateLoop_fuel _ _ _ _ _ _ (by omega)] at hfin
  rw [handleUnwantedAndTrailingTemplates, hfin]
  simp

/-! ### Switches -/

theorem switch_free : ∀ a t : Str, ¬ b!"__" <:+: a → a.getLast? ≠ some 0x5F → replaceAll (a ++ t) b!"__NOTOC__" [] = a ++ replaceAll t b!"__NOTOC__" [] := by
  intro a t
  induction a with
  | nil => intros; rfl
  | cons c a ih =>
    intro h1 h2
    rw [List.cons_append, replaceAll_cons_of_not_prefix, ih]
    · rfl
    · exact fun hh => h1 (List.infix_cons hh)
    · intro hh
      apply h2
      cases a with
      | nil => simp at hh
      | cons d a => rw [List.getLast?_cons_cons, hh]
    · intro hh
      obtain ⟨rfl, hh2⟩ := List.cons_prefix_cons.mp hh
      cases a with
      | nil => exact h2 rfl
      | cons d a =>
        rw [List.cons_append] at hh2
        obtain ⟨rfl, _⟩ := List.cons_prefix_cons.mp hh2
        exact h1 ⟨[], a, rfl⟩

theorem hidden_switches (parts : List SourcePart) : ∀ (before : List SourcePart) (a : Str),
    (∀ pre p post, parts = pre ++ p :: post → p.FitsBetween (before ++ pre) post) → a <:+ keptText before → ¬ b!"__" <:+: a ++ keptText parts →
    replaceAll (a ++ parts.flatMap part3) b!"__NOTOC__" [] = a ++ keptText parts := by
  have hfree := switch_free
  induction parts with
  | nil =>
    intro before a _ _ h
    refine replaceAll_of_not_infix fun hi => h (List.IsInfix.trans ⟨[], b!"NOTOC__", rfl⟩ hi)
  | cons p parts ih =>
    intro before a hp ha h
    have hp' : ∀ pre q post, parts = pre ++ q :: post → q.FitsBetween ((before ++ [p]) ++ pre) post := by
      intro pre q post e
      have := hp (p :: pre) q post (by rw [e]; rfl)
      simpa using this
    have hfit := hp [] p parts rfl
    rw [List.append_nil] at hfit
    have hkb : keptText (before ++ [p]) = keptText before ++ p.kept := by simp [keptText]
    have hcons : keptText (p :: parts) = p.kept ++ keptText parts := by simp [keptText]
    rw [hcons] at h ⊢
    rw [List.flatMap_cons]
    have hskip : p.kept = [] → replaceAll (a ++ parts.flatMap part3) b!"__NOTOC__" [] = a ++ (p.kept ++ keptText parts) := by
      intro hk
      rw [hk, List.nil_append] at h ⊢
      exact ih (before ++ [p]) a hp' (by rw [hkb, hk, List.append_nil]; exact ha) h
    cases p with
    | shown t =>
      have := ih (before ++ [.shown t]) (a ++ t) hp' (by
        rw [hkb]
        obtain ⟨x, e⟩ := ha
        exact ⟨x, by rw [← e]; simp [SourcePart.kept]⟩) (by simpa [SourcePart.kept] using h)
      simpa [part1, part2, part3, SourcePart.source, SourcePart.kept] using this
    | comment body => exact hskip rfl
    | commentLine body => exact hskip rfl
    | link inner => exact hskip rfl
    | template lead name args => exact hskip rfl
    | noToc =>
      have h : ¬ b!"__" <:+: a ++ keptText parts := h
      have ha1 : ¬ b!"__" <:+: a := fun hi => h (hi.trans (List.prefix_append _ _).isInfix)
      have hl : a.getLast? ≠ some 0x5F := by
        intro hl
        obtain ⟨x, e⟩ := ha
        have hne : a ≠ [] := by rintro rfl; simp at hl
        apply hfit.2
        rw [← e, List.getLast?_append_of_ne_nil _ hne, hl]
      rw [hfree a _ ha1 hl]
      show a ++ replaceAll (b!"__NOTOC__" ++ parts.flatMap part3) b!"__NOTOC__" [] = a ++ keptText parts
      rw [replaceAll_of_prefix (by simp)]
      have := ih (before ++ [.noToc]) [] hp' List.nil_suffix fun hi => h (hi.trans (List.suffix_append _ _).isInfix)
      simpa using this

/-! ### Lines -/

theorem line_kept {env : ParserEnv} {doc : List (Nat × DocBlock)} (h : ∀ b ∈ doc, b.2.WellFormed env) : ∀ l ∈ documentSource doc, KeptPart env l := by
  have hf := docLines_framed (startDoc doc) (document_plain h)
  have hok := document_lines_ok h
  intro l hl
  rw [documentSource_lines] at hl
  obtain ⟨d, hd, rfl⟩ := List.mem_map.mp hl
  have := docParts_clean (env := env) [d] (by simpa using hf d hd) (by simpa using hok d hd)
  rw [← dlineParts_flatten]
  exact KeptPart.flatten _ fun x hx => (this x hx).kept

/-- A line of the article that is shown. -/
structure ShownLine (env : ParserEnv) (l : Str) : Prop where
  kept : KeptPart env l
  pairs : ∀ c ∈ b!"{_", ¬ [c, c] <:+: l
  comments : ¬ b!"<!--" <:+: l
  oneLine : (0x0A : Byte) ∉ l

theorem padding_not_mem {a : Str} (h : Padding a) {c : Byte} (hc : c ∉ b!" \t") : c ∉ a := by
  intro hm
  rcases h c hm with rfl | rfl <;> exact absurd (by decide) hc

theorem ShownLine.padded {env : ParserEnv} {a l b : Str} (ha : Padding a) (hb : Padding b) (h : ShownLine env l) : ShownLine env (a ++ l ++ b) := by
  refine ⟨((kept_text env (padding_not_mem ha (by decide))).append h.kept).append (kept_text env (padding_not_mem hb (by decide))), ?_, ?_, ?_⟩
  · intro c hc
    have hca : c ∉ b!" \t" := by revert c; decide
    have h1 := padding_not_mem ha hca
    have h2 := padding_not_mem hb hca
    refine no_pair_append (no_pair_append (no_pair_of_not_mem h1) (Or.inl (last_of_not_mem h1)) (h.pairs c hc)) (Or.inr fun hm => h2 (List.mem_of_mem_head? hm)) (no_pair_of_not_mem h2)
  · intro hi
    have hi := infix_before (by simp) (fun c hc hm => padding_not_mem hb (by clear hc; revert c; decide) hc) hi
    exact h.comments (infix_behind (padding_not_mem ha (by decide)) hi)
  · simp only [List.mem_append, not_or]
    exact ⟨⟨padding_not_mem ha (by decide), h.oneLine⟩, padding_not_mem hb (by decide)⟩

theorem marks_shown (env : ParserEnv) {m : Str} (h : ∀ c ∈ m, c ∈ b!"*#;:") : ShownLine env m := by
  have hn : ∀ c : Byte, c ∉ b!"*#;:" → c ∉ m := fun c hc hm => hc (h c hm)
  refine ⟨kept_text env (hn _ (by decide)), fun c hc => no_pair_of_not_mem (hn c ?_), fun hi => hn 0x3C (by decide) (hi.subset (by simp)), hn _ (by decide)⟩
  revert c
  decide

theorem infix_join {sep : Str} (l : List Str) {x : Str} (h : x ∈ l) : x <:+: join sep l := by
  induction l with
  | nil => cases h
  | cons y l ih =>
    by_cases hl : l = []
    · subst hl
      rw [List.mem_singleton.mp h]
      exact List.infix_refl _
    · rw [join_cons_of_ne_nil hl]
      rcases List.mem_cons.mp h with rfl | h
      · exact ⟨[], sep ++ join sep l, by simp⟩
      · exact (ih h).trans (List.suffix_append _ _).isInfix

theorem document_shown {env : ParserEnv} {doc : List (Nat × DocBlock)} (h : ∀ b ∈ doc, b.2.WellFormed env) : ∀ l ∈ documentSource doc, ShownLine env l := by
  intro l hl
  have hc := cleanSource_document h
  have hcalm := documentSource_calm h
  have hin : l <:+: join b!"\n" (documentSource doc) := infix_join _ hl
  refine ⟨line_kept h l hl, fun c hm hi => hc.pairs c ?_ (hi.trans hin), fun hi => hcalm 0x21 (by decide) ((List.IsInfix.trans ⟨[], b!"--", rfl⟩ hi).trans hin), (document_clean h l hl).oneLine⟩
  clear hi
  revert c
  decide

theorem written_shown {env : ParserEnv} {lines written : List Str} (h : WrittenLines lines written) (hl : ∀ l ∈ lines, ShownLine env l) :
    ∀ w ∈ written, ShownLine env w := by
  induction h with
  | nil => simp
  | line a l b lines written ha hb _ ih =>
    intro w hw
    rcases List.mem_cons.mp hw with rfl | hw
    · exact (hl l (by simp)).padded ha hb
    · exact ih (fun x hx => hl x (by simp [hx])) w hw
  | emptyEntry a m b lines written ha hb _ hm _ ih =>
    intro w hw
    rcases List.mem_cons.mp hw with rfl | hw
    · exact (marks_shown env hm).padded ha hb
    · exact ih hl w hw

theorem written_trimmed {lines written : List Str} (h : WrittenLines lines written) (hl : ∀ l ∈ lines, CleanLine l) :
    (written.map trimSpace).filter keepListLine = lines := by
  induction h with
  | nil => rfl
  | line a l b lines written ha hb _ ih =>
    have := hl l (by simp)
    rw [List.map_cons, trimSpace_pad ha hb this.trimmed, List.filter_cons_of_pos this.kept, ih fun x hx => hl x (by simp [hx])]
  | emptyEntry a m b lines written ha hb hne hm _ ih =>
    have hv : ∀ c ∈ m, 33 ≤ c ∧ c ≤ 126 := by
      intro c hc
      have := hm c hc
      revert this
      simp only [List.mem_cons, List.not_mem_nil, or_false]
      rintro (rfl | rfl | rfl | rfl) <;> decide
    have ht : trimSpace m = m := trimSpace_visible (fun c hc => hv c (List.mem_of_mem_head? hc)) (fun c hc => hv c (List.mem_of_getLast? hc))
    have hlist : ∀ c ∈ m, isListBeginning c = true := by
      intro c hc
      have := hm c hc
      revert this
      simp only [List.mem_cons, List.not_mem_nil, or_false]
      rintro (rfl | rfl | rfl | rfl) <;> decide
    have hk : ¬ keepListLine m = true := by
      obtain ⟨c, t, rfl⟩ := List.exists_cons_of_ne_nil hne
      have := List.countP_eq_length.mpr hlist
      simp [keepListLine, hlist c (by simp), this]
    rw [List.map_cons, trimSpace_pad ha hb ht, List.filter_cons_of_neg hk, ih hl]

/-! ### The whole cleaner -/

theorem kept_lines {env : ParserEnv} (ws : List Str) (h : ∀ w ∈ ws, ShownLine env w) : linkLoop env (join b!"\n" ws) 0 = .ok (join b!"\n" ws) := by
  have : KeptPart env (join b!"\n" ws) := by
    induction ws with
    | nil => exact fun t ht => ht
    | cons w ws ih =>
      by_cases hw : ws = []
      · subst hw
        exact (h w (by simp)).kept
      · rw [join_cons_of_ne_nil hw]
        exact ((h w (by simp)).kept.append (kept_text env (by decide))).append (ih fun x hx => h x (by simp [hx]))
  simpa using this [] rfl

theorem headingOfArticle_shown {env : ParserEnv} {l : Str} (h : HeadingOfArticle env l) : CleanLine l ∧ ShownLine env l := by
  obtain ⟨level, before, after, title, hw, e⟩ := h
  have hb : ∀ b ∈ [(0, DocBlock.heading level before after title)], b.2.WellFormed env := by simpa using hw
  have hm : l ∈ documentSource [(0, DocBlock.heading level before after title)] := by simp [documentSource, e]
  exact ⟨document_clean hb l hm, document_shown hb l hm⟩

/-- The last line of an article is no heading. -/
theorem document_last {env : ParserEnv} {doc : List (Nat × DocBlock)} (h : DocOk env doc) : ∀ l ∈ (documentSource doc).getLast?, headingDepth l = 0 := by
  have key : ∀ doc : List (Nat × DocBlock), (∀ b ∈ doc, b.2.WellFormed env) → BlocksFollow doc → ∀ l ∈ (documentSource doc).getLast?, headingDepth l = 0 := by
    intro doc
    induction doc with
    | nil => intro _ _ l hl; cases hl
    | cons b doc ih =>
      intro hb hf l hl
      cases doc with
      | nil =>
        obtain ⟨n, b⟩ := b
        rw [documentSource, List.flatMap_cons, List.flatMap_nil, List.append_nil] at hl
        rcases List.mem_append.mp (List.mem_of_getLast? hl) with hm | hm
        · rw [List.eq_of_mem_replicate hm]
          exact depth_nil
        · exact (block_clean (hb (n, b) (by simp)) l hm).2.2 hf
      | cons b' doc =>
        have hne : documentSource (b' :: doc) ≠ [] := by
          obtain ⟨n', b'⟩ := b'
          obtain ⟨n, b⟩ := b
          rw [document_cons]
          by_cases hg : b' = .gap
          · subst hg
            have hn : 0 < n' := by
              have := hf.1
              cases b <;> first | exact this | exact this.elim
            intro e
            have := congrArg List.length e
            simp at this
            omega
          · have := source_ne (hb (n', b') (by simp)) hg
            simp [this]
        have e : documentSource (b :: b' :: doc) = (List.replicate b.1 [] ++ b.2.source) ++ documentSource (b' :: doc) := by
          simp [documentSource]
        rw [e, List.getLast?_append_of_ne_nil _ hne] at hl
        exact ih (fun x hx => hb x (by simp [hx])) (by obtain ⟨n, b⟩ := b; obtain ⟨n', b'⟩ := b'; exact hf.2) l hl
  exact key doc h.blocks h.follow

/-- Cleaning removes what is not shown. -/
theorem clean_hidden (env : ParserEnv) (doc : List (Nat × DocBlock)) (h : DocOk env doc) (parts : List SourcePart)
    (hw : ∀ p ∈ parts, p.WellFormed (linkRules env) fun n => IsIgnored env n = true ∧ IsTrailing env n = false) (hp : WellPlaced parts)
    (all : List Str) (ha : WithEmptySections (fun l => HeadingOfArticle env l) (documentSource doc) all)
    (written : List Str) (hl : WrittenLines all written) (hk : keptText parts = join b!"\n" written) (fuel : Nat)
    (hf : (join b!"\n" (documentSource doc)).length < fuel) :
    cleanText env fuel (sourceText parts) = some (.ok (join b!"\n" (documentSource doc))) := by
  have hdc := document_clean h.blocks
  have hclean : ∀ l ∈ all, CleanLine l := by
    intro l hl
    rcases withEmptySections_mem ha l hl with h' | rfl | h'
    · exact hdc l h'
    · exact ⟨by simp, trimSpace_nil, rfl⟩
    · exact (headingOfArticle_shown h').1
  have hs : ∀ w ∈ written, ShownLine env w := written_shown hl (by
    intro l hl
    rcases withEmptySections_mem ha l hl with h' | rfl | h'
    · exact document_shown h.blocks l h'
    · exact marks_shown env (by simp)
    · exact (headingOfArticle_shown h').2)
  have hc := cleanSource_document h.blocks
  have hpl : ∀ pre p post, parts = pre ++ p :: post → p.FitsBetween ([] ++ pre) post := fun pre p post e => by simpa using hp pre p post e
  have hno : ¬ b!"<!--" <:+: keptText parts := by
    rw [hk]
    exact not_infix_lines (by simp) (by decide) _ fun w hw => (hs w hw).comments
  have hpair : ∀ c ∈ b!"{_", ¬ [c, c] <:+: keptText parts := by
    intro c hc
    rw [hk]
    refine not_infix_lines (by simp) ?_ _ fun w hw => (hs w hw).pairs c hc
    revert c
    decide
  have e0 : removeComments (sourceText parts) = parts.flatMap part1 := by
    have := hidden_comments parts hw [] [] hpl List.nil_suffix (part1_calm parts hw [] hno)
    simpa using this
  have e1 : linkLoop env (parts.flatMap part1) 0 = .ok (parts.flatMap part2) := by
    have := hidden_links env parts hw [] [] hpl List.nil_suffix (by rw [List.nil_append, hk]; exact kept_lines _ hs)
    simpa using this
  have e2 : handleUnwantedAndTrailingTemplates env (parts.flatMap part2) = parts.flatMap part3 :=
    templates_removed env parts hw hp (part3_pairs parts [] (hpair 0x7B (by decide)))
  have e3 : removeUnwantedWikitext (parts.flatMap part3) = keptText parts := by
    have := hidden_switches parts [] [] hpl List.nil_suffix (hpair 0x5F (by decide))
    simpa [removeUnwantedWikitext] using this
  have hne : written ≠ [] := by
    rintro rfl
    cases hl
    exact documentSource_ne h (withEmptySections_nil ha)
  have hane : all ≠ [] := by
    rintro rfl
    exact documentSource_ne h (withEmptySections_nil ha)
  have e4 : removeEmptyListEntries (keptText parts) = join b!"\n" all := by
    rw [removeEmptyListEntries, hk, split_join_singleton hne fun w hw => (hs w hw).oneLine, written_trimmed hl hclean]
  have hs' : split (join b!"\n" all) b!"\n" = all :=
    split_join_singleton hane (fun l h => (hclean l h).oneLine)
  have e5 : removeEmptySections (join b!"\n" all) = join b!"\n" (documentSource doc) := by
    rw [removeEmptySections, hs', sectionLoop_more ha (fun l hl => (hclean l hl).trimmed) (sections_kept doc h.blocks h.follow) (document_last h)]
  rw [cleanText, e0, removeUnwantedInternalLinks, e1]
  simp only [e2, e3, e4, e5]
  exact railwayLoop_calm (hc.pairs 0x7B (by decide)) fuel 0 (by omega) (by omega)

end Verif.Model
