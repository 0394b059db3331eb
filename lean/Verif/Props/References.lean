import Verif.Lemmas.RefLoop
import Verif.Lemmas.RefOrder
import Verif.Model.Article
import Verif.Props.Expand
import Mathlib.Tactic.IntervalCases

/-!
# References (C37)
-/

namespace Verif.Props
open Verif.Go Verif.Model Verif.Spec
open scoped List

/-- **C37**: in an article with any number of references and lists of references each mention of a reference becomes a
marker with the number of the reference, and each list of references becomes the entries with their numbers
(`refShown`). Everything else is not changed, but line breaks in front of a list. `hd`: the texts of the references can
be tokenized. What is missing: articles in which the parser overlooks tags, see `RefPartsOk` and the theorems with
counterexamples below. -/
theorem C37_references_become_markers_and_lists_partial (env : ParserEnv) (n : Nat) (start : Str) (parts : RefParts)
    (hs : NoRefTag start) (hp : RefPartsOk [] (breaksAtEnd start) parts)
    (hd : ∀ p ∈ parts, ∀ tag as space content closing, p.1 = .define tag as space content closing →
      ∀ s, ∃ out s', tokenizeContent env n content s = some (.ok (out, s')))
    (s : TokState) (hk : KeysCreated s) :
    ∃ out s' steps, (∀ fuel, steps ≤ fuel →
        parseReferences (tokenizeContent env n) fuel (start ++ parts.text) s = some (.ok (out, s'))) ∧
      RefsWritten (tokenizeContent env n) s'.tokenMap (.text start :: refShown [] parts) out :=by
  obtain ⟨out, s', steps, h1, h2, _⟩ := partsRun (growing_tokenizeContent env n) parts start 0 _ s [] [.text start]
    (by simpa using hs) (Or.inr (Nat.zero_le _)) (refInv_nil _) hk hp (.text (ps := []) (out := []) start .nil) hd
  exact ⟨out, s', steps, h1, h2⟩

/-! ### The numbers -/

/-- **C37**: two mentions of references of a group have the same number if and only if they mention the same reference. -/
theorem C37_same_number_iff_same_reference (items : List (RefItem Str)) (i j : Nat) (group : Str) (x y : RefId)
    (hi : RefMention items i group x) (hj : RefMention items j group y) :
    refNumber items i group x = refNumber items j group y ↔ x = y := by
  rw [refNumber_eq hi, refNumber_eq hj]
  exact List.idxOf_inj ((mem_refOrder _ _ _).mpr ⟨i, hi⟩)

/-- **C37**: a reference that is mentioned for the first time has a larger number than all references before. -/
theorem C37_numbers_follow_the_first_mention (items : List (RefItem Str)) (i j : Nat) (group : Str) (x y : RefId)
    (hi : RefMention items i group x) (hj : RefMention items j group y) (hij : i < j)
    (hfirst : ∀ k, k < j → ¬ RefMention items k group y) :
    refNumber items i group x < refNumber items j group y := by
  rw [refNumber_eq hj, refNumber]
  obtain ⟨r, hr⟩ := refOrder_take (items := items) (i + 1) group
  have hx : x ∈ refOrder group (items.take (i + 1)) := (mem_refOrder _ _ _).mpr ⟨i, refMention_take.mpr ⟨by omega, hi⟩⟩
  have hy : y ∉ refOrder group (items.take (i + 1)) := by
    intro h
    obtain ⟨k, hk⟩ := (mem_refOrder _ _ _).mp h
    obtain ⟨h1, h2⟩ := refMention_take.mp hk
    exact hfirst k (by omega) h2
  rw [← hr, List.idxOf_append_of_notMem hy]
  have := List.idxOf_lt_length_of_mem hx
  omega

/-- **C37**: no number is left out. -/
theorem C37_numbers_are_consecutive (items : List (RefItem Str)) (j : Nat) (group : Str) (y : RefId)
    (hj : RefMention items j group y) (n : Nat) (hn : n < refNumber items j group y) :
    ∃ i x, i < j ∧ RefMention items i group x ∧ refNumber items i group x = n := by
  have hy : y ∈ refOrder group (items.take (j + 1)) := (mem_refOrder _ _ _).mpr ⟨j, refMention_take.mpr ⟨by omega, hj⟩⟩
  have hlt := List.idxOf_lt_length_of_mem hy
  have hlen : n < (refOrder group (items.take (j + 1))).length := by unfold refNumber at hn; omega
  have hmem := List.getElem_mem hlen
  generalize hx : (refOrder group (items.take (j + 1)))[n] = x at hmem
  obtain ⟨i, hi⟩ := (mem_refOrder _ _ _).mp hmem
  obtain ⟨h1, h2⟩ := refMention_take.mp hi
  have hidx : (refOrder group (items.take (j + 1))).idxOf x = n := by
    rw [← hx]
    exact (refOrder_good group _).1.idxOf_getElem n hlen
  have hnum : refNumber items i group x = n := by
    rw [refNumber_eq h2, ← hidx]
    obtain ⟨r, hr⟩ := refOrder_take (items := items) (j + 1) group
    rw [← hr, List.idxOf_append_of_mem hmem]
  refine ⟨i, x, ?_, h2, hnum⟩
  rcases Nat.lt_or_ge i j with h | h
  · exact h
  · exfalso
    have : i = j := by omega
    subst this
    obtain ⟨a, ha1, ha2⟩ := hj
    obtain ⟨b, hb1, hb2⟩ := h2
    rw [ha1] at hb1
    cases hb1
    rw [ha2] at hb2
    cases hb2
    omega

/-- **C37**: an entry of a list has the number of the markers of the reference, and a text that has been given for it. -/
theorem C37_entries_have_the_number_of_their_reference (items : List (RefItem Str)) (group : Str) (n : Nat) (content : Str)
    (h : (n, content) ∈ refEntries group items) :
    ∃ i id tag as space closing, items[i]? = some (.define tag as space content closing) ∧ RefMention items i group id ∧
      refNumber items i group id = n := by
  obtain ⟨id, h1, h2⟩ := mem_refEntries.mp h
  obtain ⟨k, tag, as, space, closing, h3, h4⟩ := refDefs_from group items _ (List.mem_of_find?_eq_some h2)
  refine ⟨k, id, tag, as, space, closing, h3, h4, ?_⟩
  rw [refNumber_eq h4]
  obtain ⟨hlen, hx⟩ := List.getElem?_eq_some_iff.mp h1
  rw [← hx]
  exact (refOrder_good group _).1.idxOf_getElem n hlen

/-- **C37**: the entries are in the order of the numbers, with one entry at most for each number. -/
theorem C37_entries_are_ordered (items : List (RefItem Str)) (group : Str) :
    (refEntries group items).Pairwise fun a b => a.1 < b.1 := by
  unfold refEntries
  rw [List.pairwise_filterMap]
  refine List.Pairwise.imp (R := fun (a b : RefId × Nat) => a.2 < b.2) ?_ ?_
  · rintro a b hab x hx y hy
    simp only [Option.map_eq_some_iff] at hx hy
    obtain ⟨_, _, rfl⟩ := hx
    obtain ⟨_, _, rfl⟩ := hy
    exact hab
  · have := List.pairwise_lt_range (n := (refOrder group items).length)
    rw [← List.zipIdx_map_snd 0 (refOrder group items) |>.trans (List.range_eq_range').symm, List.pairwise_map] at this
    exact this

/-- **C37**: each reference that has been defined since the last list of its group has an entry, with the text of the last
definition. -/
theorem C37_defined_references_have_an_entry (items : List (RefItem Str)) (i : Nat) (group : Str) (id : RefId) (tag : Str)
    (as : RefAttrs) (space content closing : Str) (hi : items[i]? = some (.define tag as space content closing))
    (hm : RefMention items i group id)
    (hlater : ∀ j item, i < j → items[j]? = some item → item.listGroup ≠ some group ∧
      ((∃ tag as space content closing, item = .define tag as space content closing) → ¬ RefMention items j group id)) :
    (refNumber items i group id, content) ∈ refEntries group items := by
  rw [mem_refEntries, refNumber_eq hm]
  exact ⟨id, List.getElem?_idxOf ((mem_refOrder _ _ _).mpr ⟨i, hm⟩), refDefs_found hi hm hlater⟩

/-! ### The HTML -/

theorem expand_one_key (env : HtmlEnv) (tokens : List (Str × Token)) (fuel : Nat) {type : Str} (k : Nat)
    (ht : type ≠ [] ∧ ∀ c ∈ type, tokenChar c = true) {token : Token} {x : Str}
    (h : lookupToken tokens (tokenKey type k) = some token)
    (hx : expandToken env (expandString env tokens fuel) token = some (.ok x)) :
    expandString env tokens (fuel + 1) (tokenKey type k) = some (.ok x) := by
  have := C29_single_dollars_are_kept_partial env tokens fuel [] [] type k token x
    (unambiguous_of (by decide) (by decide) (by decide) (by decide)) (by decide) ht h hx
  simpa using this

/-- **C37**: the marker and the entry of a reference show the same number, and references with different numbers have
different markers. -/
theorem C37_markers_and_entries_show_the_number (env : HtmlEnv) (tokens : List (Str × Token)) (fuel n k k' : Nat)
    (content html : Str) (h : lookupToken tokens (tokenKey b!"REF_USAGE" k) = some (.refUsage n))
    (h' : lookupToken tokens (tokenKey b!"REF_DEF" k') = some (.refDefinition n content))
    (hc : expandString env tokens fuel content = some (.ok html)) :
    ∃ label, expandString env tokens (fuel + 1) (tokenKey b!"REF_USAGE" k) = some (.ok (b!"[" ++ label ++ b!"]")) ∧
      expandString env tokens (fuel + 1) (tokenKey b!"REF_DEF" k') = some (.ok (b!"[" ++ label ++ b!"] " ++ html ++ b!"<br>")) ∧
      label = decimal (n + 1) ∧ ∀ m, m ≠ n → decimal (m + 1) ≠ label := by
  refine ⟨decimal (n + 1), expand_one_key env tokens fuel k ⟨by decide, by decide⟩ h rfl,
    expand_one_key env tokens fuel k' ⟨by decide, by decide⟩ h' ?_, rfl, fun m hm he => hm ?_⟩
  · simp only [expandToken]
    rw [hc]
    rfl
  · have := decimal_injective he
    omega

/-! ### An article with references -/

/-- The text of the example in front of the first tag and the tags with the texts behind them. -/
def referenceStart : Str := b!"Ada"

def referenceParts : RefParts :=
  [(.define b!"<ref" [⟨b!"name", b!"a", true⟩] [] b!"Book A" b!"</ref>", b!" and Bob"),
   (.define b!"<REF" [] b!" " b!"Page" b!"</Ref>", []),
   (.use b!"<ref" [⟨b!"group", b!"note", false⟩, ⟨b!"name", b!"a", true⟩] b!" ", b!"."),
   (.use b!"<ref" [⟨b!"name", b!"a", false⟩] [], b!"\n\n"),
   (.openList b!"<references" [⟨b!"group", b!"note", true⟩] [], b!"\n"),
   (.define b!"<ref" [⟨b!"group", b!"note", true⟩, ⟨b!"name", b!"a", true⟩] [] b!"Note" b!"</ref>", b!"\n"),
   (.closeList b!"</references" b!"note", b!"\n"),
   (.list b!"<references" [] b!" ", b!"\nend")]

example : referenceStart ++ referenceParts.text =
    b!"Ada<ref name=\"a\">Book A</ref> and Bob<REF >Page</Ref><ref group=note name=\"a\" />.<ref name=a/>\n\n<references group=\"note\">\n<ref group=\"note\" name=\"a\">Note</ref>\n</references>\n<references />\nend" := by
  decide +kernel

example : (refShown [] referenceParts).filterMap (fun p => match p with | .marker n => some n | _ => none) = [0, 1, 0, 0] ∧
    refEntries b!"note" ((referenceParts.map Prod.fst).take 6) = [(0, b!"Note")] ∧
    refEntries [] ((referenceParts.map Prod.fst).take 7) = [(0, b!"Book A"), (1, b!"Page")] := by
  decide +kernel

theorem attrs_ok {as : RefAttrs} (h1 : ∀ a ∈ as, ∀ c ∈ a.key, c ≠ 0x20 ∧ c ≠ 0x22 ∧ c ≠ 0x3C ∧ c ≠ 0x3D ∧ c ≠ 0x3E ∧ c ≠ 0x0A)
    (h2 : ∀ a ∈ as, a.value ≠ [] ∧ ∀ c ∈ a.value, c ≠ 0x22 ∧ c ≠ 0x3C ∧ c ≠ 0x3E ∧ c ≠ 0x0A ∧ c ≠ 0x3D ∧ c ≠ 0x2F ∧ regexSpace c = false)
    (h3 : (as.map RefAttr.key).Nodup) (h4 : RefAttrs.get as b!"group" ≠ defaultReferenceGroup) : as.WellFormed := by
  have hno : ∀ (p : Str), 0x20 ∈ p → ∀ a ∈ as, ¬ p <:+: a.value := by
    intro p hp a ha h
    have := (h2 a ha).2 _ (h.subset hp)
    exact absurd this.2.2.2.2.2.2 (by decide)
  exact ⟨fun a ha => ⟨h1 a ha, fun c hc => by have := (h2 a ha).2 c hc; exact ⟨this.1, this.2.1, this.2.2.1, this.2.2.2.1⟩,
    hno _ (by decide) a ha, hno _ (by decide) a ha,
    fun _ => ⟨(h2 a ha).1, fun c hc => by have := (h2 a ha).2 c hc; exact this.2.2.2.2⟩⟩, h3, h4⟩

/-- The hypotheses of `C37_references_become_markers_and_lists_partial`. -/
example : NoRefTag referenceStart ∧ RefPartsOk [] (breaksAtEnd referenceStart) referenceParts ∧
    (∀ p ∈ referenceParts, ∀ tag as space content closing, p.1 = .define tag as space content closing →
      ∀ s, ∃ out s', tokenizeContent tokenizerEnv 40 content s = some (.ok (out, s'))) ∧ KeysCreated TokState.initial := by
  have ha : ∀ p ∈ referenceParts, match p.1 with
      | .define _ as .. | .use _ as _ | .list _ as _ | .openList _ as _ => as.WellFormed
      | .closeList .. => True := by
    simp only [referenceParts, List.forall_mem_cons]
    refine ⟨?_, ?_, ?_, ?_, ?_, ?_, ?_, ?_, by simp⟩ <;> first | trivial | exact attrs_ok (by decide) (by decide) (by decide) (by decide)
  simp only [referenceParts, List.forall_mem_cons] at ha
  obtain ⟨a1, a2, a3, a4, a5, a6, a7, a8, _⟩ := ha
  refine ⟨by constructor <;> decide +kernel, ?_, ?_, by simp [KeysCreated, TokState.initial]⟩
  · refine ⟨⟨by decide, a1, by unfold Spaces; decide, by decide, by decide +kernel, by decide +kernel⟩, by constructor <;> decide +kernel, by decide +kernel,
      ⟨by decide, a2, by unfold Spaces; decide, by decide, by decide +kernel, by decide +kernel⟩, by constructor <;> decide +kernel, by decide +kernel,
      ⟨by decide, a3, by unfold Spaces; decide, by decide⟩, by constructor <;> decide +kernel, by decide +kernel,
      ⟨by decide, a4, by unfold Spaces; decide, by decide⟩, by constructor <;> decide +kernel, by decide +kernel,
      ⟨by decide, a5, by unfold Spaces; decide⟩, by constructor <;> decide +kernel, by decide +kernel,
      ⟨by decide, a6, by unfold Spaces; decide, by decide, by decide +kernel, by decide +kernel⟩, by constructor <;> decide +kernel, by decide +kernel,
      ⟨by decide, by decide⟩, by constructor <;> decide +kernel, ⟨by decide +kernel, Or.inr (by decide +kernel)⟩,
      ⟨by decide, a8, by unfold Spaces; decide⟩, by constructor <;> decide +kernel, ⟨by decide +kernel, Or.inl rfl⟩, trivial⟩
  · simp only [referenceParts, List.forall_mem_cons]
    refine ⟨?_, ?_, ?_, ?_, ?_, ?_, ?_, ?_, by simp⟩ <;> intro tag as space content closing h s <;> cases h
    · exact ⟨b!"Book A", s, by rfl⟩
    · exact ⟨b!"Page", s, by rfl⟩
    · exact ⟨b!"Note", s, by rfl⟩

/-- Mentions as in the theorems about numbers: the third mention of the group has the number of the first one, the
second one has another number. -/
example : RefMention (referenceParts.map Prod.fst) 0 [] (.named b!"a") ∧ RefMention (referenceParts.map Prod.fst) 1 [] (.unnamed 1) ∧
    RefMention (referenceParts.map Prod.fst) 3 [] (.named b!"a") ∧
    refNumber (referenceParts.map Prod.fst) 0 [] (.named b!"a") = 0 ∧ refNumber (referenceParts.map Prod.fst) 1 [] (.unnamed 1) = 1 ∧
    refNumber (referenceParts.map Prod.fst) 3 [] (.named b!"a") = 0 ∧ ∀ k, k < 1 → ¬ RefMention (referenceParts.map Prod.fst) k [] (.unnamed 1) := by
  refine ⟨⟨_, rfl, by decide⟩, ⟨_, rfl, by decide⟩, ⟨_, rfl, by decide⟩, by decide +kernel, by decide +kernel, by decide +kernel, ?_⟩
  rintro k hk ⟨item, h1, h2⟩
  have : k = 0 := by omega
  subst this
  cases h1
  exact absurd h2 (by decide)

/-- The definition at the position 1 has an entry in the last list. -/
example : ((referenceParts.map Prod.fst).take 7)[1]? = some (.define b!"<REF" [] b!" " b!"Page" b!"</Ref>") ∧
    RefMention ((referenceParts.map Prod.fst).take 7) 1 [] (.unnamed 1) ∧
    ∀ j item, 1 < j → ((referenceParts.map Prod.fst).take 7)[j]? = some item → item.listGroup ≠ some [] ∧
      ((∃ tag as space content closing, item = .define tag as space content closing) →
        ¬ RefMention ((referenceParts.map Prod.fst).take 7) j [] (.unnamed 1)) := by
  refine ⟨rfl, ⟨_, rfl, by decide⟩, ?_⟩
  intro j item hj hi
  have hlt := (List.getElem?_eq_some_iff.mp hi).1
  have : j < 7 := by simpa [referenceParts] using hlt
  refine ⟨?_, ?_⟩
  · interval_cases j <;> (cases hi; decide)
  · rintro - ⟨item', h1, h2⟩
    rw [hi] at h1
    cases h1
    interval_cases j <;> (cases hi; revert h2; decide)

/-- Tokens as in `C37_markers_and_entries_show_the_number`. -/
example : lookupToken [(tokenKey b!"REF_USAGE" 1, .refUsage 11), (tokenKey b!"REF_DEF" 0, .refDefinition 11 b!"x")] (tokenKey b!"REF_USAGE" 1) =
      some (.refUsage 11) ∧
    (expandString htmlEnv [(tokenKey b!"REF_USAGE" 1, .refUsage 11), (tokenKey b!"REF_DEF" 0, .refDefinition 11 b!"x")] 5
      (tokenKey b!"REF_USAGE" 1 ++ tokenKey b!"REF_DEF" 0)).run = some (.ok b!"[12][12] x<br>") := by
  exact ⟨lookup_head _ _ _, by decide +kernel⟩

/-- The whole article of the example. -/
example : articleBody tokenizerEnv htmlEnv 400 (referenceStart ++ referenceParts.text) =
    some (.ok b!"Ada[1] and Bob[2][1].[1]\n[1] Note<br>\n[1] Book A<br>\n[2] Page<br>\nend") := by
  decide +kernel

/-! ### Where C37 is false -/

/-- **C37** is false for references of different groups: both have the marker `[1]`, though they are different. -/
theorem C37_groups_have_the_same_numbers :
    articleBody tokenizerEnv htmlEnv 100 b!"a<ref>x</ref> b<ref group=\"n\">y</ref>" = some (.ok b!"a[1] b[1]") := by
  decide +kernel

/-- **C37** is false for references without a definition: the marker has no entry. -/
theorem C37_undefined_reference_has_no_entry :
    articleBody tokenizerEnv htmlEnv 100 b!"a<ref name=\"n\" /> b<ref>x</ref>\n<references />" = some (.ok b!"a[1] b[2]\n[2] x<br>") := by
  decide +kernel

/-- **C37** is false for articles without a list of references: the text of the reference is not shown. -/
theorem C37_without_list_the_text_is_lost :
    articleBody tokenizerEnv htmlEnv 100 b!"a<ref>x</ref> b" = some (.ok b!"a[1] b") := by
  decide +kernel

/-- **C37** is false for references directly behind `<references>`: the tag is overlooked, and the end of the list is
taken as the end of the reference. The program crashes. -/
theorem C37_reference_directly_behind_list_start_crashes :
    articleBody tokenizerEnv htmlEnv 200 b!"a<ref name=\"n\" />\n<references><ref name=\"n\">x</ref></references>" = some .panic := by
  decide +kernel

/-- **C37** is false behind a list without entries: after the removal of line breaks the parser overlooks the start of a
following reference, and takes its end as a start. The program crashes. -/
theorem C37_reference_behind_empty_list_crashes :
    articleBody tokenizerEnv htmlEnv 200 b!"a\n\n<references /><ref>x</ref> b" = some .panic := by
  decide +kernel

end Verif.Props
