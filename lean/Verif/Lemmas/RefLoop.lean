import Verif.Lemmas.RefNumbers
import Verif.Lemmas.Tokens

/-!
# Lemmas about the loop of `parseReferences`
-/

namespace Verif.Model
open Verif.Go Verif.Spec Verif.Lemmas
open scoped List

/-! ### Text without tags -/

theorem noRefTag_nil : NoRefTag [] := by constructor <;> (intro h; exact absurd (List.infix_nil.mp h) (by decide))

theorem noRefTag_suffix {t t' : Str} (h : NoRefTag t) (hs : t' <:+ t) : NoRefTag t' :=
  ⟨fun hi => h.1 (hi.trans (suffix_lowered hs).isInfix), fun hi => h.2 (hi.trans (suffix_lowered hs).isInfix)⟩

theorem noRefTag_behind {x t : Str} (hx : (0x3C : Byte) ∉ x) (h : NoRefTag t) : NoRefTag (x ++ t) := by
  have hx' := lt_not_mem_lowered hx
  unfold NoRefTag
  rw [lowered_append]
  exact ⟨fun hi => h.1 (infix_behind hx' hi), fun hi => h.2 (infix_behind hx' hi)⟩

section
variable (rec : Rec)

theorem refLoop_char (fuel : Nat) (content : Str) (i : Nat) (st : RefState) (hlen : i + 4 < content.length)
    (h : ¬ b!"<ref" <+: lowered (content.drop i)) (h' : ¬ b!"</re" <+: lowered (content.drop i)) :
    refLoop rec (fuel + 1) content i st = refLoop rec fuel content (i + 1) st := by
  rw [refLoop, if_pos hlen]
  simp only
  rw [if_neg]
  rw [Bool.or_eq_true, not_or]
  have h1 := take_same_iff (s := content.drop i) (tag := b!"<ref") (by decide)
  have h2 := take_same_iff (s := content.drop i) (tag := b!"</re") (by decide)
  exact ⟨fun hc => h (h1.mp hc), fun hc => h' (h2.mp hc)⟩

theorem refLoop_skip (fuel : Nat) (a t r : Str) (st : RefState) (ht : NoRefTag t) (hr : 5 ≤ r.length)
    (hlt : ∃ r', r = 0x3C :: r') :
    refLoop rec (fuel + t.length) (a ++ t ++ r) a.length st = refLoop rec fuel (a ++ t ++ r) (a ++ t).length st := by
  induction t generalizing a with
  | nil => simp
  | cons c t ih =>
    obtain ⟨r', rfl⟩ := hlt
    have key : ∀ p : Str, (0x3C : Byte) ∉ p → ¬ 0x3C :: p <:+: lowered (c :: t) →
        ¬ 0x3C :: p <+: lowered ((a ++ c :: t ++ 0x3C :: r').drop a.length) := by
      intro p hp hn hpre
      rw [List.append_assoc, List.drop_left, lowered_append] at hpre
      exact hn (tag_prefix (b := lowered r') hp (by simp [lowered]) hpre).isInfix
    rw [List.length_cons, ← Nat.add_assoc, refLoop_char]
    · have e : a ++ c :: t = (a ++ [c]) ++ t := by simp
      rw [e, show a.length + 1 = (a ++ [c]).length by simp]
      exact ih _ (noRefTag_suffix ht (List.suffix_cons _ _))
    · simp at hr ⊢; omega
    · exact key _ (by decide) ht.1
    · exact key _ (by decide) ht.2

theorem refLoop_last (n : Nat) : ∀ (fuel : Nat) (content : Str) (i : Nat) (st : RefState), content.length ≤ i + n → n < fuel →
    NoRefTag (content.drop i) → refLoop rec fuel content i st = pure content := by
  induction n with
  | zero =>
    intro fuel content i st h1 h2 _
    obtain ⟨f, rfl⟩ := Nat.exists_eq_add_of_le' h2
    rw [refLoop, if_neg (by omega)]
  | succ n ih =>
    intro fuel content i st h1 h2 h3
    obtain ⟨f, rfl⟩ := Nat.exists_eq_add_of_le' (Nat.lt_of_le_of_lt (Nat.zero_le _) h2 : 1 ≤ fuel)
    by_cases hl : i + 4 < content.length
    · rw [refLoop_char rec f content i st hl (fun h => h3.1 h.isInfix) (fun h => h3.2 h.isInfix)]
      refine ih f content (i + 1) st (by omega) (by omega) (noRefTag_suffix h3 ?_)
      rw [← List.drop_drop]
      exact List.drop_suffix _ _
    · rw [refLoop, if_neg hl]

end

/-! ### Line breaks at the end -/

theorem trimNewlines_break (x : Str) : trimNewlines (x ++ b!"\n") = trimNewlines x := by
  simp [trimNewlines, trimRightOf]

theorem trimNewlines_keep (x : Str) {c : Byte} (hc : c ≠ 0x0A) : trimNewlines (x ++ [c]) = x ++ [c] := by
  simp [trimNewlines, trimRightOf, hc]

theorem trimNewlines_eq (x : Str) : trimNewlines x = withoutBreaks x := by
  unfold trimNewlines trimRightOf withoutBreaks breaksAtEnd
  have h := List.takeWhile_append_dropWhile (p := fun c => decide (c = (0x0A : Byte))) (l := x.reverse)
  have h2 := congrArg List.reverse h
  rw [List.reverse_append, List.reverse_reverse] at h2
  generalize hA : (x.reverse.takeWhile fun c => decide (c = (0x0A : Byte))) = A at h h2 ⊢
  generalize hB : (x.reverse.dropWhile fun c => decide (c = (0x0A : Byte))) = B at h h2 ⊢
  clear hA hB
  rw [← h2, List.take_left']
  simp

theorem trimNewlines_idem (x : Str) : trimNewlines (trimNewlines x) = trimNewlines x := by
  unfold trimNewlines trimRightOf
  rw [List.reverse_reverse]
  congr 1
  generalize x.reverse = y
  induction y with
  | nil => rfl
  | cons c y ih =>
    by_cases h : c = 0x0A
    · rw [List.dropWhile_cons_of_pos (by simpa using h), ih]
    · rw [List.dropWhile_cons_of_neg (by simpa using h), List.dropWhile_cons_of_neg (by simpa using h)]

/-- Ends with something else than a line break. -/
def EndsVisibly (k : Str) : Prop := ∃ x c, k = x ++ [c] ∧ c ≠ (0x0A : Byte)

theorem listed_text (a : Str) (keys : List Str) (hk : ∀ k ∈ keys, EndsVisibly k) :
    trimNewlines (trimNewlines a ++ b!"\n" ++ keys.flatMap fun k => k ++ b!"\n") =
      withoutBreaks a ++ keys.flatMap fun k => b!"\n" ++ k := by
  have e : ∀ (keys : List Str), b!"\n" ++ (keys.flatMap fun k => k ++ b!"\n") = (keys.flatMap fun k => b!"\n" ++ k) ++ b!"\n" := by
    intro keys
    induction keys with
    | nil => rfl
    | cons k keys ih => simp only [List.flatMap_cons, List.append_assoc] at ih ⊢; rw [ih]
  rw [List.append_assoc, e, ← List.append_assoc, trimNewlines_break, ← trimNewlines_eq]
  rcases List.eq_nil_or_concat keys with rfl | ⟨l, k, rfl⟩
  · simp [trimNewlines_idem]
  · obtain ⟨x, c, rfl, hc⟩ := hk k (by simp)
    have e2 : trimNewlines a ++ ((l ++ [x ++ [c]]).flatMap fun k => b!"\n" ++ k) =
        (trimNewlines a ++ (l.flatMap fun k => b!"\n" ++ k) ++ b!"\n" ++ x) ++ [c] := by simp
    rw [List.concat_eq_append, e2, trimNewlines_keep _ hc]

theorem takeWhile_newlines : ∀ (l : Str), ∀ c ∈ l.takeWhile (fun c => decide (c = (0x0A : Byte))), c = 0x0A
  | [], c, h => by simp at h
  | d :: l, c, h => by
    by_cases hd : d = 0x0A
    · rw [List.takeWhile_cons_of_pos (by simpa using hd)] at h
      rcases List.mem_cons.mp h with rfl | h
      · exact hd
      · exact takeWhile_newlines l c h
    · rw [List.takeWhile_cons_of_neg (by simpa using hd)] at h
      simp at h

theorem breaksAtEnd_append (a t : Str) :
    breaksAtEnd (a ++ t) = if ∀ c ∈ t, c = 0x0A then t.length + breaksAtEnd a else breaksAtEnd t := by
  unfold breaksAtEnd
  rw [List.reverse_append]
  split
  · rename_i h
    rw [List.takeWhile_append_of_pos (by simpa using h)]
    simp
  · rename_i h
    rw [List.takeWhile_append, if_neg]
    intro hl
    apply h
    have hp : t.reverse.takeWhile (fun c => decide (c = (0x0A : Byte))) = t.reverse :=
      (List.takeWhile_prefix _).eq_of_length (by simpa using hl)
    intro c hc
    have : c ∈ t.reverse.takeWhile (fun c => decide (c = (0x0A : Byte))) := by rw [hp]; simpa using hc
    exact takeWhile_newlines t.reverse c this

theorem breaksAtEnd_visible {k : Str} (h : EndsVisibly k) (a : Str) : breaksAtEnd (a ++ k) = 0 := by
  obtain ⟨x, c, rfl, hc⟩ := h
  simp [breaksAtEnd, hc]

theorem breaksAtEnd_le (x : Str) : breaksAtEnd x ≤ x.length := by
  unfold breaksAtEnd
  have := (List.takeWhile_prefix (fun c => decide (c = (0x0A : Byte))) (l := x.reverse)).length_le
  simpa using this

theorem withoutBreaks_length (x : Str) : (withoutBreaks x).length = x.length - breaksAtEnd x := by
  unfold withoutBreaks
  rw [List.length_take]
  omega

theorem breaksAtEnd_withoutBreaks (x : Str) : breaksAtEnd (withoutBreaks x) = 0 := by
  have h1 := withoutBreaks_length (withoutBreaks x)
  have h2 := breaksAtEnd_le (withoutBreaks x)
  rw [← trimNewlines_eq (withoutBreaks x), ← trimNewlines_eq x, trimNewlines_idem, trimNewlines_eq] at h1
  omega

/-! ### Keys -/

theorem tokenKey_visible (t : Str) (n : Nat) : EndsVisibly (tokenKey t n) :=
  ⟨b!"$$TOKEN_" ++ t ++ b!"_" ++ decimal n ++ b!"$", 0x24, by simp [tokenKey], by decide⟩

theorem decimal_length_pos (n : Nat) : 1 ≤ (decimal n).length := List.length_pos_of_ne_nil (decimal_ne_nil n)

/-! ### The entries of a list -/

theorem Matched.mono {α β : Type} {p q : α → β → Prop} (h : ∀ a b, p a b → q a b) {l : List α} {r : List β}
    (hm : Matched p l r) : Matched q l r := by
  induction hm with
  | nil => exact .nil
  | cons h1 _ ih => exact .cons (h _ _ h1) ih

/-- The key stands for the entry. -/
def RefEntry {α : Type} (P : α → Str → Prop) (m : List (Str × Token)) (e : Nat × α) (key : Str) : Prop :=
  ∃ k content, key = tokenKey b!"REF_DEF" k ∧ P e.2 content ∧ lookupToken m key = some (.refDefinition e.1 content)

theorem refDefinitions_run {α : Type} {P : α → Str → Prop} {items : List (RefItem α)} {st : RefState} (h : RefInv P items st) {g : Str}
    (hg : g ≠ defaultReferenceGroup) : ∀ (suf pre : List RefId), refOrder g items = pre ++ suf →
    ∀ s, KeysCreated s → ∃ keys s',
      refDefinitions st.contents (modelGroup g) (refOrder g items).length suf.length s =
        some (.ok (keys.flatMap (fun k => k ++ b!"\n"), s')) ∧ Grows s s' ∧
      Matched (RefEntry P s'.tokenMap) ((suf.zipIdx pre.length).filterMap fun x =>
        ((refDefs g items).find? fun d => d.1 = x.1).map fun d => (x.2, d.2)) keys ∧
      ∀ k ∈ keys, ∃ n, k = tokenKey b!"REF_DEF" n := by
  intro suf
  induction suf with
  | nil =>
    intro pre _ s _
    exact ⟨[], s, rfl, Grows.refl s, .nil, by simp⟩
  | cons id suf ih =>
    intro pre ho s hs
    have hlen : (refOrder g items).length - (suf.length + 1) = pre.length := by rw [ho]; simp
    have hnext : refOrder g items = (pre ++ [id]) ++ suf := by rw [ho]; simp
    have hget : (refOrder g items)[pre.length]? = some id := by rw [ho]; simp
    have hc := h.contents g hg pre.length
    unfold refDefAt at hc
    rw [hget, Option.bind_some] at hc
    rw [List.length_cons, refDefinitions.eq_def]
    simp only [hlen]
    rw [List.zipIdx_cons, List.filterMap_cons]
    simp only
    cases hf : (refDefs g items).find? fun d => decide (d.1 = id) with
    | none =>
      rw [hf] at hc
      have ha : assoc st.contents (modelGroup g, pre.length) = none := by
        generalize assoc st.contents (modelGroup g, pre.length) = o at hc
        cases hc; rfl
      rw [ha]
      obtain ⟨keys, s', h1, h2, h3, h4⟩ := ih (pre ++ [id]) hnext s hs
      refine ⟨keys, s', h1, h2, ?_, h4⟩
      simpa using h3
    | some d =>
      rw [hf] at hc
      obtain ⟨text, ha, ht⟩ : ∃ text, assoc st.contents (modelGroup g, pre.length) = some text ∧ P d.2 text := by
        generalize assoc st.contents (modelGroup g, pre.length) = o at hc
        cases hc with
        | some hp => exact ⟨_, rfl, hp⟩
      rw [ha]
      let s1 : TokState := ⟨(tokenKey b!"REF_DEF" s.counter, .refDefinition pre.length text) :: s.tokenMap, s.counter + 1, s.images⟩
      have hg1 : Grows s s1 := Grows.reserved (t := b!"REF_DEF") (Grows.refl { s with counter := s.counter + 1 })
      have hk1 : KeysCreated s1 := hg1.keysCreated hs
      obtain ⟨keys, s', h1, h2, h3, h4⟩ := ih (pre ++ [id]) hnext s1 hk1
      refine ⟨tokenKey b!"REF_DEF" s.counter :: keys, s', ?_, hg1.trans h2, ?_, ?_⟩
      · show (refDefinitions st.contents (modelGroup g) (refOrder g items).length suf.length >>= fun rest =>
          pure (tokenKey b!"REF_DEF" s.counter ++ b!"\n" ++ rest)) s1 = _
        rw [TokM.bind_eq, h1]
        simp only [List.flatMap_cons]
        rfl
      · refine .cons ⟨_, text, rfl, ht, h2.lookup hk1 (lookup_head _ _ _)⟩ ?_
        simpa using h3
      · intro k hk
        rcases List.mem_cons.mp hk with rfl | hk
        · exact ⟨_, rfl⟩
        · exact h4 k hk

/-! ### The loop -/

theorem RefsWritten.mono {rec : Rec} {s s' : TokState} (hg : Grows s s') (hs : KeysCreated s) {ps : List (RefPiece Str)} {out : Str}
    (h : RefsWritten rec s.tokenMap ps out) : RefsWritten rec s'.tokenMap ps out := by
  induction h with
  | nil => exact .nil
  | text t _ ih => exact .text t ih
  | marker n k _ hk ih => exact .marker n k ih (hg.lookup hs hk)
  | list entries keys _ hk ih =>
    exact .list entries keys ih (Matched.mono (fun e key hp => by
      obtain ⟨k, c, h0, h1, h2⟩ := hp
      exact ⟨k, c, h0, h1, hg.lookup hs h2⟩) hk)

theorem item_starts {item : RefItem Str} (h : item.WellFormed) (r : Str) : 5 ≤ (item.text ++ r).length ∧ ∃ r', item.text ++ r = 0x3C :: r' := by
  have key : ∀ (tag : Str) (x : Str) (u : Str), lowered tag = 0x3C :: x → 3 ≤ x.length → u ≠ [] →
      5 ≤ (tag ++ u ++ r).length ∧ ∃ r', tag ++ u ++ r = 0x3C :: r' := by
    intro tag x u ht hx hu
    have hl : tag.length = x.length + 1 := by rw [← lowered_length, ht]; rfl
    have hu' := List.length_pos_of_ne_nil hu
    refine ⟨by simp; omega, ?_⟩
    cases tag with
    | nil => cases ht
    | cons c tag =>
      simp only [lowered, List.map_cons, List.cons.injEq] at ht
      rw [lower_eq_lt ht.1]
      exact ⟨_, rfl⟩
  cases item with
  | define tag as space content closing =>
    have := key tag b!"ref" (as.text ++ space ++ b!">" ++ content ++ closing) h.1 (by decide) (by simp)
    simpa [RefItem.text, List.append_assoc] using this
  | use tag as space =>
    have := key tag b!"ref" (as.text ++ space ++ b!"/>") h.1 (by decide) (by simp)
    simpa [RefItem.text, List.append_assoc] using this
  | list tag as space =>
    have := key tag b!"references" (as.text ++ space ++ b!"/>") h.1 (by decide) (by simp)
    simpa [RefItem.text, List.append_assoc] using this
  | openList tag as space =>
    have := key tag b!"references" (as.text ++ space ++ b!">") h.1 (by decide) (by simp)
    simpa [RefItem.text, List.append_assoc] using this
  | closeList tag group =>
    have := key tag b!"/references" b!">" h.1 (by decide) (by simp)
    simpa [RefItem.text, List.append_assoc] using this

/-- The result of the loop. -/
def LoopGives (rec : Rec) (content : Str) (i : Nat) (st : RefState) (s : TokState) (ps : List (RefPiece Str)) : Prop :=
  ∃ out s' N, (∀ fuel, N ≤ fuel → refLoop rec fuel content i st s = some (.ok (out, s'))) ∧
    RefsWritten rec s'.tokenMap ps out ∧ Grows s s'

theorem LoopGives.step {rec : Rec} {content content' : Str} {i i' : Nat} {st st' : RefState} {s s' : TokState} {ps : List (RefPiece Str)}
    (n : Nat) (he : ∀ fuel, refLoop rec (fuel + n) content i st s = refLoop rec fuel content' i' st' s') (hg : Grows s s')
    (h : LoopGives rec content' i' st' s' ps) : LoopGives rec content i st s ps := by
  obtain ⟨out, s2, N, h1, h2, h3⟩ := h
  refine ⟨out, s2, N + n, fun fuel hf => ?_, h2, hg.trans h3⟩
  obtain ⟨f, rfl⟩ := Nat.exists_eq_add_of_le' (by omega : n ≤ fuel)
  rw [he]
  exact h1 f (by omega)

/-- The contents of the definitions can be tokenized. -/
def DefsRun (rec : Rec) (parts : RefParts) : Prop :=
  ∀ p ∈ parts, ∀ tag as space content closing, p.1 = .define tag as space content closing →
    ∀ s, ∃ out s', rec content s = some (.ok (out, s'))

def PartsRun (rec : Rec) (parts : RefParts) : Prop :=
  ∀ out i st s items ps, NoRefTag (out.drop i) → (parts = [] ∨ i ≤ out.length) → RefInv (Tokenized rec) items st → KeysCreated s →
    RefPartsOk items (breaksAtEnd out) parts → RefsWritten rec s.tokenMap ps out → DefsRun rec parts →
    LoopGives rec (out ++ parts.text) i st s (ps ++ refShown items parts)

theorem refUsage_run (within : Bool) (n : Nat) (s : TokState) : ∃ key s', refUsage within n s = some (.ok (key, s')) ∧ Grows s s' ∧
    (within = true ∧ key = [] ∨ within = false ∧ lookupToken s'.tokenMap key = some (.refUsage n) ∧ ∃ k, key = tokenKey b!"REF_USAGE" k) := by
  cases within with
  | true => exact ⟨[], s, rfl, Grows.refl s, Or.inl ⟨rfl, rfl⟩⟩
  | false =>
    exact ⟨tokenKey b!"REF_USAGE" s.counter, _, rfl, Grows.reserved (t := b!"REF_USAGE") (Grows.refl { s with counter := s.counter + 1 }),
      Or.inr ⟨rfl, lookup_head _ _ _, _, rfl⟩⟩

theorem breaksBehind_eq {items : List (RefItem Str)} {item : RefItem Str} {text : Str} {out out' : Str}
    (h : breaksAtEnd out' = match refPieces items item with
      | [] => breaksAtEnd out
      | _ => 0) : breaksAtEnd (out' ++ text) = breaksBehind items item text (breaksAtEnd out) := by
  rw [breaksAtEnd_append, breaksBehind]
  split
  · rw [h]
    cases refPieces items item <;> rfl
  · rfl

theorem after_mention {rec : Rec} {parts : RefParts} (ih : PartsRun rec parts) {out : Str} {st st' : RefState} {s s1 : TokState}
    {items : List (RefItem Str)} {ps : List (RefPiece Str)} {item : RefItem Str} {text key g : Str} {id : RefId}
    (hst : RefInv (Tokenized rec) items st) (hst' : RefInv (Tokenized rec) (items ++ [item]) st') (hs : KeysCreated s) (hg : Grows s s1)
    (hm : item.mentions items.length = some (g, id))
    (hok : RefPartsOk (items ++ [item]) (breaksBehind items item text (breaksAtEnd out)) parts)
    (hsep : refOpen items = none ∨ text ≠ []) (htext : NoRefTag text)
    (hw : RefsWritten rec s.tokenMap ps out) (hd : DefsRun rec parts)
    (hkey : st.within = true ∧ key = [] ∨ st.within = false ∧
      lookupToken s1.tokenMap key = some (.refUsage ((refOrder g (items ++ [item])).idxOf id)) ∧ ∃ k, key = tokenKey b!"REF_USAGE" k) :
    LoopGives rec (out ++ key ++ (text ++ parts.text)) (out.length + 1) st' s1 (ps ++ refShown items ((item, text) :: parts)) := by
  have hp : refPieces items item = if refOpen items = none then [.marker ((refOrder g (items ++ [item])).idxOf id)] else [] := by
    simp only [refPieces, hm]
  have hw1 := RefsWritten.mono hg hs hw
  rw [hst.within] at hkey
  rw [← List.append_assoc, refShown]
  rcases hkey with ⟨ho, rfl⟩ | ⟨ho, hl, k, rfl⟩
  · obtain ⟨g', ho⟩ := Option.isSome_iff_exists.mp ho
    rw [ho, if_neg (by simp)] at hp
    have ht : text ≠ [] := by
      rcases hsep with h | h
      · rw [ho] at h; cases h
      · exact h
    rw [hp, List.append_nil, List.nil_append, ← List.append_assoc]
    refine ih _ _ _ _ _ _ ?_ (Or.inr ?_) hst' (hg.keysCreated hs) ?_ (.text text hw1) hd
    · rw [← List.drop_drop, List.drop_left]
      exact noRefTag_suffix htext (List.drop_suffix _ _)
    · have := List.length_pos_of_ne_nil ht
      simp; omega
    · rw [breaksBehind_eq (items := items) (item := item) (out := out) (by rw [hp])]
      exact hok
  · rw [Option.isSome_eq_false_iff, Option.isNone_iff_eq_none] at ho
    rw [ho, if_pos rfl] at hp
    rw [hp, ← List.append_assoc, ← List.append_assoc]
    refine ih _ _ _ _ _ _ ?_ (Or.inr ?_) hst' (hg.keysCreated hs) ?_ (.text text (.marker _ _ hw1 hl)) hd
    · rw [List.append_assoc, ← List.drop_drop, List.drop_left]
      exact noRefTag_suffix (noRefTag_behind (lt_not_mem_tokenKey (by decide) k) htext) (List.drop_suffix _ _)
    · simp [tokenKey]
    · rw [breaksBehind_eq (items := items) (item := item) (out := out) (by rw [hp]; exact breaksAtEnd_visible (tokenKey_visible _ _) _)]
      exact hok

theorem keys_length (keys : List Str) (h : ∀ k ∈ keys, ∃ n, k = tokenKey b!"REF_DEF" n) :
    20 * keys.length ≤ (keys.flatMap fun k => b!"\n" ++ k).length := by
  induction keys with
  | nil => simp
  | cons k keys ih =>
    have := ih fun k hk => h k (List.mem_cons_of_mem _ hk)
    obtain ⟨n, rfl⟩ := h k List.mem_cons_self
    have hn := decimal_length_pos n
    rw [List.flatMap_cons, List.length_append, List.length_cons]
    have : (b!"\n" ++ tokenKey b!"REF_DEF" n).length = 19 + (decimal n).length := by
      simp [tokenKey]; omega
    omega

theorem keys_no_lt (keys : List Str) (h : ∀ k ∈ keys, ∃ n, k = tokenKey b!"REF_DEF" n) :
    (0x3C : Byte) ∉ keys.flatMap fun k => b!"\n" ++ k := by
  intro hm
  obtain ⟨k, hk, hc⟩ := List.mem_flatMap.mp hm
  obtain ⟨n, rfl⟩ := h k hk
  rcases List.mem_append.mp hc with hc | hc
  · exact absurd hc (by decide)
  · exact lt_not_mem_tokenKey (by decide) n hc

theorem Matched.length {α β : Type} {p : α → β → Prop} {l : List α} {r : List β} (hm : Matched p l r) : l.length = r.length := by
  induction hm with
  | nil => rfl
  | cons _ _ ih => simp [ih]

theorem refListed_run {α : Type} {P : α → Str → Prop} {items : List (RefItem α)} {st : RefState} (h : RefInv P items st) {g : Str}
    (hg : g ≠ defaultReferenceGroup) (a : Str) (s : TokState) (hs : KeysCreated s) : ∃ keys s',
      refListed a (modelGroup g) st s = some (.ok (withoutBreaks a ++ keys.flatMap (fun k => b!"\n" ++ k), s')) ∧ Grows s s' ∧
      Matched (RefEntry P s'.tokenMap) (refEntries g items) keys ∧ ∀ k ∈ keys, ∃ n, k = tokenKey b!"REF_DEF" n := by
  obtain ⟨keys, s', h1, h2, h3, h4⟩ := refDefinitions_run h hg (refOrder g items) [] rfl s hs
  refine ⟨keys, s', ?_, h2, h3, h4⟩
  unfold refListed
  rw [TokM.bind_eq, h.counter g hg, h1]
  simp only
  rw [listed_text a keys fun k hk => by obtain ⟨n, rfl⟩ := h4 k hk; exact tokenKey_visible _ _]
  rfl

theorem after_list {rec : Rec} {parts : RefParts} (ih : PartsRun rec parts) {out : Str} {st' : RefState} {s s1 : TokState}
    {items : List (RefItem Str)} {ps : List (RefPiece Str)} {item : RefItem Str} {text g : Str} {keys : List Str}
    (hst' : RefInv (Tokenized rec) (items ++ [item]) st') (hs : KeysCreated s) (hg : Grows s s1)
    (hm : item.mentions items.length = none) (hlg : item.listGroup = some g)
    (hok : RefPartsOk (items ++ [item]) (breaksBehind items item text (breaksAtEnd out)) parts)
    (hsep : parts = [] ∨ breaksAtEnd out < 20 * (refEntries g items).length + text.length) (htext : NoRefTag text)
    (hw : RefsWritten rec s.tokenMap ps out) (hd : DefsRun rec parts)
    (hmat : Matched (RefEntry (Tokenized rec) s1.tokenMap) (refEntries g items) keys)
    (hkeys : ∀ k ∈ keys, ∃ n, k = tokenKey b!"REF_DEF" n) :
    LoopGives rec (withoutBreaks out ++ keys.flatMap (fun k => b!"\n" ++ k) ++ (text ++ parts.text)) (out.length + 1) st' s1
      (ps ++ refShown items ((item, text) :: parts)) := by
  have hp : refPieces items item = [.list (refEntries g items)] := by simp only [refPieces, hm, hlg]
  have hw1 := RefsWritten.mono hg hs hw
  have hwl := withoutBreaks_length out
  have hkl := keys_length keys hkeys
  have hbl := breaksAtEnd_le out
  rw [← List.append_assoc, refShown, hp, ← List.append_assoc, ← List.append_assoc]
  refine ih _ _ _ _ _ _ ?_ ?_ hst' (hg.keysCreated hs) ?_ (.text text (.list _ _ hw1 hmat)) hd
  · rw [List.append_assoc, List.drop_append, List.drop_eq_nil_of_le (by omega), List.nil_append]
    exact noRefTag_suffix (noRefTag_behind (keys_no_lt keys hkeys) htext) (List.drop_suffix _ _)
  · rcases hsep with h | h
    · exact Or.inl h
    · rw [Matched.length hmat] at h
      exact Or.inr (by simp only [List.length_append] at hkl ⊢; omega)
  · rw [breaksBehind_eq (items := items) (item := item) (out := out) (by
      rw [hp]
      rcases List.eq_nil_or_concat keys with rfl | ⟨l, k, rfl⟩
      · simpa using breaksAtEnd_withoutBreaks out
      · obtain ⟨n, rfl⟩ := hkeys k (by simp)
        have : (l.concat (tokenKey b!"REF_DEF" n)).flatMap (fun k => b!"\n" ++ k) =
            (l.flatMap (fun k => b!"\n" ++ k) ++ b!"\n") ++ tokenKey b!"REF_DEF" n := by simp
        rw [this, ← List.append_assoc]
        exact breaksAtEnd_visible (tokenKey_visible _ _) _)]
    exact hok

theorem LoopGives.bind {rec : Rec} {α : Type} {m : TokM α} {f : α → Nat → TokM Str} {content content' : Str} {i i' : Nat} {st st' : RefState}
    {s s1 : TokState} {a : α} {ps : List (RefPiece Str)}
    (he : ∀ fuel, refLoop rec (fuel + 1) content i st = (m >>= fun x => f x fuel)) (hm : m s = some (.ok (a, s1)))
    (hf : ∀ fuel, f a fuel s1 = refLoop rec fuel content' i' st' s1) (hg : Grows s s1)
    (h : LoopGives rec content' i' st' s1 ps) : LoopGives rec content i st s ps := by
  refine LoopGives.step 1 (fun fuel => ?_) hg h
  rw [he, TokM.bind_eq, hm]
  exact hf fuel

theorem partsRun {rec : Rec} (hgr : ∀ c, Growing (rec c)) : ∀ parts, PartsRun rec parts := by
  intro parts
  induction parts with
  | nil =>
    intro out i st s items ps hn _ _ _ _ hw _
    refine ⟨out, s, out.length + 1, fun fuel hf => ?_, by simpa [refShown] using hw, Grows.refl s⟩
    have e : out ++ RefParts.text [] = out := by simp [RefParts.text]
    rw [e, refLoop_last rec out.length fuel out i st (by omega) (by omega) hn]
    rfl
  | cons p parts ih =>
    obtain ⟨item, text⟩ := p
    intro out i st s items ps hn hi hst hs hok hw hd
    have hi : i ≤ out.length := by
      rcases hi with h | h
      · cases h
      · exact h
    obtain ⟨hwf, htext, hsep, hok⟩ := hok
    have hd' : DefsRun rec parts := fun p hp => hd p (List.mem_cons_of_mem _ hp)
    obtain ⟨r, hr⟩ : ∃ r, r = text ++ RefParts.text parts := ⟨_, rfl⟩
    have etext : RefParts.text ((item, text) :: parts) = item.text ++ r := by
      simp [RefParts.text, hr]
    rw [etext]
    obtain ⟨hl5, hlt⟩ := item_starts hwf r
    -- the text in front of the item
    refine LoopGives.step (out.drop i).length (content' := out ++ (item.text ++ r)) (i' := out.length) (st' := st) (s' := s) (fun fuel => ?_) (Grows.refl s) ?_
    · have := refLoop_skip rec fuel (out.take i) (out.drop i) (item.text ++ r) st hn hl5 hlt
      rw [List.take_append_drop, List.length_take, Nat.min_eq_left hi] at this
      rw [this]
    -- the item
    cases item with
    | define tag as space content closing =>
      obtain ⟨t, s1, ht⟩ := hd _ List.mem_cons_self _ _ _ _ _ rfl s
      have hg1 := hgr content s t s1 ht
      have hnum := (number_eq hst (item := .define tag as space content closing) (name := as.get b!"name") hwf.2.1.notDefault rfl rfl).1
      obtain ⟨key, s2, hk1, hk2, hk3⟩ := refUsage_run st.within (st.number (modelGroup (as.get b!"group")) (as.get b!"name")) s1
      refine LoopGives.step 1 (s' := s2) (fun fuel => ?_) (hg1.trans hk2) (after_mention ih hst (refInv_define hst hwf.2.1 ⟨s, s1, ht⟩) hs (hg1.trans hk2) rfl hok
        hsep htext hw hd' (key := key) ?_)
      · rw [refLoop_define rec out r st hwf, TokM.bind_eq, ht]
        simp only
        rw [TokM.bind_eq, hk1, hr]
      · rw [← hnum]
        exact hk3
    | use tag as space =>
      have hnum := (number_eq hst (item := .use tag as space) (name := as.get b!"name") hwf.2.1.notDefault rfl (by rw [if_neg hwf.2.2.2])).1
      obtain ⟨key, s2, hk1, hk2, hk3⟩ := refUsage_run st.within (st.number (modelGroup (as.get b!"group")) (as.get b!"name")) s
      refine LoopGives.step 1 (s' := s2) (fun fuel => ?_) hk2 (after_mention ih hst (refInv_use hst hwf.2.1 hwf.2.2.2) hs hk2 rfl hok
        hsep htext hw hd' (key := key) ?_)
      · rw [refLoop_use rec out r st hwf, TokM.bind_eq, hk1, hr]
      · rw [← hnum]
        exact hk3
    | list tag as space =>
      have hg0 := hwf.2.1.notDefault
      obtain ⟨keys, s1, h1, h2, h3, h4⟩ := refListed_run hst hg0 out s hs
      refine LoopGives.step 1 (s' := s1) (fun fuel => ?_) h2 (after_list ih (item := .list tag as space) (refInv_listed hst hg0 rfl ?_) hs h2 rfl rfl hok hsep.2 htext hw hd' h3 h4)
      · rw [refLoop_list rec out r st hwf (by rw [hst.group, hsep.1]; rfl), TokM.bind_eq, h1, hr]
      · unfold refOpen; rw [refOpenFrom_append]; exact hsep.1
    | closeList tag g =>
      have hg0 := hwf.2
      have hpg : (if st.placeholderGroup = [] then modelGroup [] else st.placeholderGroup) = modelGroup g := by
        rw [hst.group]
        rcases hsep.1 with h | ⟨h, rfl⟩
        · rw [h]; simp [modelGroup_ne]
        · rw [h]; rfl
      obtain ⟨keys, s1, h1, h2, h3, h4⟩ := refListed_run hst hg0 out s hs
      refine LoopGives.step 1 (s' := s1) (fun fuel => ?_) h2 (after_list ih (item := .closeList tag g) (refInv_listed hst hg0 rfl ?_) hs h2 rfl rfl hok hsep.2 htext hw hd' h3 h4)
      · rw [refLoop_closeList rec out r st hwf, hpg, TokM.bind_eq, h1, hr]
      · unfold refOpen; rw [refOpenFrom_append]
    | openList tag as space =>
      have hp : refPieces items (.openList tag as space) = [] := rfl
      refine LoopGives.step 1 (s' := s) (fun fuel => by rw [refLoop_openList rec out r st hwf]) (Grows.refl s) ?_
      rw [hr, ← List.append_assoc, refShown, hp, List.nil_append, ← List.append_assoc]
      refine ih _ _ _ _ _ _ ?_ (Or.inr ?_) (refInv_openList hst) hs ?_ (.text text hw) hd'
      · rw [← List.drop_drop, List.drop_left]
        exact noRefTag_suffix htext (List.drop_suffix _ _)
      · have := List.length_pos_of_ne_nil hsep.2
        simp; omega
      · rw [breaksBehind_eq (items := items) (item := .openList tag as space) (out := out) (by rw [hp])]
        exact hok

end Verif.Model
