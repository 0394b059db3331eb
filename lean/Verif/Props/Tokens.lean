import Verif.Lemmas.Tokens

/-!
# Token keys (C27)
-/

namespace Verif.Props
open Verif.Go Verif.Model Verif.Spec

/-- **C27** (whole parser): whatever the wikitext and the configuration are, the tokenizer never assigns two tokens to
the same key: every token that was ever created is still found in the end, under the key that was created for it. -/
theorem C27_no_token_is_replaced (env : ParserEnv) (fuel : Nat) (content result : Str) (s : TokState)
    (h : tokenizeContent env fuel content TokState.initial = some (.ok (result, s))) :
    NoTokenReplaced s.tokenMap ∧ (∀ key token, (key, token) ∈ s.tokenMap → lookupToken s.tokenMap key = some token) ∧
      KeysCreated s := by
  obtain ⟨_, ⟨new, hn, hd, hk⟩, _⟩ := growing_tokenizeContent env fuel content _ _ _ h
  rw [show s.tokenMap = new by simpa [TokState.initial] using hn]
  refine ⟨hd, fun key token hm => lookupToken_of_mem hd hm, ?_⟩
  intro e he
  rw [show s.tokenMap = new by simpa [TokState.initial] using hn] at he
  obtain ⟨t, n, _, h2, h3⟩ := hk e he
  exact ⟨t, n, h2, h3⟩

/-- **C27** (any later text): tokenizing a further text does not change what the tokens created so far stand for. -/
theorem C27_earlier_tokens_are_kept (env : ParserEnv) (fuel : Nat) (content result : Str) (s s' : TokState)
    (hs : NoTokenReplaced s.tokenMap) (hc : KeysCreated s)
    (h : tokenizeContent env fuel content s = some (.ok (result, s'))) :
    NoTokenReplaced s'.tokenMap ∧ KeysCreated s' ∧
      ∀ key token, lookupToken s.tokenMap key = some token → lookupToken s'.tokenMap key = some token := by
  obtain ⟨hcount, ⟨new, hn, hd, hk⟩, _⟩ := growing_tokenizeContent env fuel content _ _ _ h
  have hnd : NoTokenReplaced s'.tokenMap := by
    unfold NoTokenReplaced
    rw [hn, List.map_append, List.nodup_append]
    refine ⟨hd, hs, ?_⟩
    intro a ha b hb heq
    obtain ⟨e, he, rfl⟩ := List.mem_map.mp ha
    obtain ⟨e', he', rfl⟩ := List.mem_map.mp hb
    obtain ⟨t, m, h1, _, h3⟩ := hk e he
    obtain ⟨t', m', h5, h6⟩ := hc e' he'
    have := tokenKey_number (h3.symm.trans (heq.trans h6))
    omega
  refine ⟨hnd, ?_, ?_⟩
  · intro e he
    rw [hn] at he
    rcases List.mem_append.mp he with he | he
    · obtain ⟨t, n, _, h2, h3⟩ := hk e he
      exact ⟨t, n, h2, h3⟩
    · obtain ⟨t, n, h2, h3⟩ := hc e he
      exact ⟨t, n, by omega, h3⟩
  · intro key token hl
    have : (key, token) ∈ s.tokenMap := by
      unfold lookupToken at hl
      obtain ⟨e, he, rfl⟩ := Option.map_eq_some_iff.mp hl
      have hp := List.find?_some he
      simp only [beq_iff_eq] at hp
      rw [← hp]
      exact List.mem_of_find?_eq_some he
    exact lookupToken_of_mem hnd (hn ▸ List.mem_append_right _ this)

/-- A configuration for the examples. -/
def tokenizerEnv : ParserEnv where
  lower := List.map lowerByte
  upperFirst := id
  config := { defaultConfig ⟨b!"/c", false, false⟩ with
    list := fun o => match o with
      | .filePrefixes => [b!"file"]
      | _ => [] }

/-- The keys of the tokens of a text, in the order of the assignments. -/
def keysOf (env : ParserEnv) (content : Str) : Option (List Str) :=
  match tokenizeContent env 80 content TokState.initial with
  | some (.ok (_, s)) => some (s.tokenMap.map Prod.fst).reverse
  | _ => none

-- a heading with a link, which is parsed while the heading is being parsed, and a list with a formula
example : keysOf tokenizerEnv b!"= [[a]] =\n* b <math>x</math>" =
    some [b!"$$TOKEN_INTERNAL_LINK_1$$", b!"$$TOKEN_HEADING_0$$", b!"$$TOKEN_REF_MATH_2$$",
      b!"$$TOKEN_UNORDERED_LIST_3$$"] := by
  decide +kernel

end Verif.Props
