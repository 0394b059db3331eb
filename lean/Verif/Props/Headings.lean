import Verif.Lemmas.Headings
import Verif.Props.Tokens

/-!
# Headings (C34)
-/

namespace Verif.Props
open Verif.Go Verif.Model Verif.Spec
open scoped List

/-- What should become of a line of a text: `tokenize` is the function for the text of a heading and `tokens` are the
tokens in the end. A heading becomes a token with the same level and its text, every other line stays. -/
structure HeadingParsed (tokenize : Rec) (tokens : List (Str × Token)) (line out : Str) : Prop where
  heading : ∀ n text, IsHeading line n text → ¬ List.replicate n (0x3D : Byte) <:+: text →
    ∃ number content before after, out = tokenKey b!"HEADING" number ∧
      tokenize text before = some (.ok (content, after)) ∧ lookupToken tokens out = some (.heading content n)
  other : ¬ MarkedLine line → out = line

/-- **C34** for all texts, all states of the tokenizer and every function for the inner text that only adds tokens (as
the tokenizer itself does): all lines stay in place, headings become tokens with the same level and exactly their text,
and other lines are not changed. What is missing: headings whose text contains the marker itself, for which the claim is
false (`C34_inner_marker_is_lost`). -/
theorem C34_headings_keep_level_and_text_partial (tokenize : Rec) (hrec : ∀ c, Growing (tokenize c))
    (content result : Str) (s s' : TokState) (hc : KeysCreated s)
    (h : parseHeadings tokenize content s = some (.ok (result, s'))) :
    ∃ outs, result = join b!"\n" outs ∧
      List.Forall₂ (HeadingParsed tokenize s'.tokenMap) (split content b!"\n") outs := by
  obtain ⟨outs, h1, h2⟩ := parseHeadings_done hrec hc h
  refine ⟨outs, h1, h2.imp ?_⟩
  intro line out hd
  refine ⟨fun n text hh hi => ?_, fun hm => hd.1 (Nat.le_of_eq (levelUpTo_of_not_marked hm 7))⟩
  have hl := levelUpTo_of_heading hh
  obtain ⟨⟨h1, h2⟩, inner, h3, h4, h5, h6, h7⟩ := hh
  obtain ⟨k, c, s₁, s₂, e1, e2, e3⟩ := hd.2 (by omega)
  rw [hl] at e2 e3
  rw [headingText_of_heading h1 h3 h6 h7 fun hx => hi (h7 ▸ replicate_infix_trimSpace h1 hx)] at e2
  exact ⟨k, c, s₁, s₂, e1, e2, e3⟩

/-- **C34** Headings are always parsed: if the function for the inner text returns for every text, so does
`parseHeadings`. -/
theorem C34_headings_are_parsed (tokenize : Rec) (htotal : ∀ c s, ∃ out s', tokenize c s = some (.ok (out, s')))
    (content : Str) (s : TokState) : ∃ result s', parseHeadings tokenize content s = some (.ok (result, s')) := by
  have seq : ∀ {α β : Type} (m : TokM α) (f : α → TokM β) s, (∃ a s', m s = some (.ok (a, s'))) →
      (∀ a s', ∃ b s'', f a s' = some (.ok (b, s''))) → ∃ b s', (m >>= f) s = some (.ok (b, s')) := by
    rintro α β m f s ⟨a, s', h⟩ hf
    obtain ⟨b, s'', h'⟩ := hf a s'
    exact ⟨b, s'', by show (match m s with | none => none | some (.ok (a, s')) => f a s' | some .err => some .err | some .panic => some .panic | some .fatal => some .fatal) = _; rw [h]; exact h'⟩
  have line : ∀ depth line s, ∃ out s', headingLine tokenize depth line s = some (.ok (out, s')) := by
    intro depth line s
    unfold headingLine
    split
    · exact seq _ _ _ ⟨_, _, rfl⟩ fun _ _ => seq _ _ _ (htotal _ _) fun _ _ => seq _ _ _ ⟨_, _, rfl⟩ fun _ _ => ⟨_, _, rfl⟩
    · exact ⟨_, _, rfl⟩
  have lines : ∀ depth lines s, ∃ out s', headingLines tokenize depth lines s = some (.ok (out, s')) := by
    intro depth lines
    induction lines with
    | nil => exact fun s => ⟨_, _, rfl⟩
    | cons l rest ih => exact fun s => seq _ _ _ (line _ _ _) fun _ _ => seq _ _ _ (ih _) fun _ _ => ⟨_, _, rfl⟩
  have depths : ∀ depth lines s, ∃ out s', headingDepths tokenize depth lines s = some (.ok (out, s')) := by
    intro depth
    induction depth with
    | zero => exact fun lines s => ⟨_, _, rfl⟩
    | succ depth ih => exact fun ls s => seq _ _ _ (lines _ _ _) fun _ _ => ih _ _
  exact seq _ _ _ (depths _ _ _) fun _ _ => ⟨_, _, rfl⟩

/-- The same for the tokenizer itself. -/
theorem C34_headings_of_the_tokenizer_partial (env : ParserEnv) (fuel : Nat) (content result : Str) (s s' : TokState)
    (hc : KeysCreated s) (h : parseHeadings (tokenizeContent env fuel) content s = some (.ok (result, s'))) :
    ∃ outs, result = join b!"\n" outs ∧
      List.Forall₂ (HeadingParsed (tokenizeContent env fuel) s'.tokenMap) (split content b!"\n") outs :=
  C34_headings_keep_level_and_text_partial _ (growing_tokenizeContent env fuel) content result s s' hc h

-- a heading of level 2 with white space
example : IsHeading b!" == A = b ==\t" 2 b!"A = b" :=
  ⟨by decide, b!" A = b ", by decide +kernel, by decide, by decide, by decide, by decide +kernel⟩

example : ¬ List.replicate 2 (0x3D : Byte) <:+: b!"A = b" := by
  rw [← contains_eq_false_iff]; decide

/-- The only heading among the tokens: text and level. -/
def headingOf (content : Str) : Option (Str × Nat) :=
  match parseHeadings (fun c => pure c) content TokState.initial with
  | some (.ok (_, { tokenMap := [(_, .heading c d)], .. })) => some (c, d)
  | _ => none

example : headingOf b!"x\n == A = b ==\t\n=y" = some (b!"A = b", 2) := by decide +kernel

/-- The claim is false if the text contains the marker: the equals signs of `a = b` vanish. -/
theorem C34_inner_marker_is_lost :
    IsHeading b!"= a = b =" 1 b!"a = b" ∧ headingOf b!"= a = b =" = some (b!"a  b", 1) :=
  ⟨⟨by decide, b!" a = b ", by decide +kernel, by decide, by decide, by decide, by decide +kernel⟩, by decide +kernel⟩

end Verif.Props
