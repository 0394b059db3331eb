import Verif.Lemmas.WikiLists
import Verif.Lemmas.Tokens
import Verif.Model.Article
import Verif.Props.CleanLinks
import Verif.Props.Expand

/-!
# Lists (C35)
-/

namespace Verif.Props
open Verif.Go Verif.Model Verif.Spec
open scoped List

/-- **C35**: in a text with any number of nested lists between other lines, each list is replaced by one line with the key
of a token, the other lines are not changed. The tokens are the ones of the specification: one for each list, and the
texts of the items are tokenized (`rec`) in the order of writing. `steps` bounds the number of steps. What is missing: the
text of an item is tokenized like the text of an article, see `C35_text_of_item_becomes_a_list`. -/
theorem C35_lists_keep_their_structure_partial (rec : Rec) (blocks : List ListBlock) (hb : blocks ≠ [])
    (h : blocksWellFormed blocks) :
    ∃ steps, ∀ fuel, steps ≤ fuel →
      parseLists rec fuel (join b!"\n" (blocks.flatMap ListBlock.lines)) = (do
        let lines ← tokenizedBlocks rec blocks
        pure (join b!"\n" lines)) := by
  refine ⟨(blocks.map fun b => weight (b.lines.map trimSpace) + 3).sum + 1, fun fuel hf => ?_⟩
  have hn : ∀ (blocks : List ListBlock), blocksWellFormed blocks → ∀ x ∈ blocks.flatMap ListBlock.lines, (0x0A : Byte) ∉ x := by
    intro blocks
    induction blocks with
    | nil => intro _ x hx; simp at hx
    | cons b rest ih =>
      intro h x hx
      rw [List.flatMap_cons, List.mem_append] at hx
      cases b with
      | line l =>
        rw [blocksWellFormed] at h
        rcases hx with hx | hx
        · simp only [ListBlock.lines, List.mem_singleton] at hx
          exact hx ▸ h.1
        · exact ih h.2.2 x hx
      | list l written =>
        rw [blocksWellFormed] at h
        rcases hx with hx | hx
        · exact h.2.1 x hx
        · exact ih h.2.2.2.2 x hx
  have hne : blocks.flatMap ListBlock.lines ≠ [] := by
    cases blocks with
    | nil => exact absurd rfl hb
    | cons b rest =>
      rw [List.flatMap_cons]
      cases b with
      | line l => simp [ListBlock.lines]
      | list l written =>
        rw [blocksWellFormed] at h
        obtain ⟨t, more, hh⟩ := lines_head l h.1
        have := h.2.2.1
        rw [hh] at this
        cases written with
        | nil => simp at this
        | cons w ws => simp [ListBlock.lines]
  rw [parseLists, split_join_singleton hne (hn blocks h), tokenizedBlocks_ok rec blocks h fuel hf]

mutual
/-- **C35**: the token of a list is its tree: the same kinds, items, order and nesting. `f` is what the tokenizer makes
of the texts. -/
theorem C35_token_is_the_tree (rec : Rec) (f : Str → Str) (hr : ∀ t s, ∃ s', rec t s = some (.ok (f t, s'))) :
    ∀ (l : WikiList) (s : TokState), ∃ key s', tokenizedList rec l s = some (.ok ((l.tree f, key), s')) ∧
      lookupToken s'.tokenMap key = some (.list (l.tree f))
  | .mk m items, s => by
    obtain ⟨s', h⟩ := items_tree rec f hr m items s
    refine ⟨tokenKey m.kindName s'.counter, ⟨(tokenKey m.kindName s'.counter, .list (.mk m.kind (itemsTree f m items))) ::
      s'.tokenMap, s'.counter + 1, s'.images⟩, ?_, ?_⟩
    · rw [tokenizedList, WikiList.tree]
      simp only [Bind.bind, h]
      rfl
    · simp [lookupToken, WikiList.tree]
theorem items_tree (rec : Rec) (f : Str → Str) (hr : ∀ t s, ∃ s', rec t s = some (.ok (f t, s'))) (m : ListMark) :
    ∀ (items : List WikiItem) (s : TokState), ∃ s', tokenizedItems rec m items s = some (.ok (itemsTree f m items, s'))
  | [], s => ⟨s, rfl⟩
  | .hull subs :: rest, s => by
    obtain ⟨s1, h1⟩ := lists_tree rec f hr subs s
    obtain ⟨s2, h2⟩ := items_tree rec f hr m rest s1
    refine ⟨s2, ?_⟩
    rw [tokenizedItems, tokenizedItem, itemsTree]
    simp only [Bind.bind, h1, Pure.pure, h2, List.cons_append, List.nil_append]
  | .entry c text subs :: rest, s => by
    obtain ⟨s0, h0⟩ := hr text s
    obtain ⟨s1, h1⟩ := lists_tree rec f hr subs s0
    obtain ⟨s2, h2⟩ := items_tree rec f hr m rest s1
    refine ⟨s2, ?_⟩
    rw [tokenizedItems, tokenizedItem, itemsTree]
    simp only [Bind.bind, h0, h1, Pure.pure, h2, List.cons_append, List.nil_append]
  | .pair a b subs :: rest, s => by
    obtain ⟨s0, h0⟩ := hr a s
    obtain ⟨s0', h0'⟩ := hr b s0
    obtain ⟨s1, h1⟩ := lists_tree rec f hr subs s0'
    obtain ⟨s2, h2⟩ := items_tree rec f hr m rest s1
    refine ⟨s2, ?_⟩
    rw [tokenizedItems, tokenizedItem, itemsTree]
    simp only [Bind.bind, h0, h0', h1, Pure.pure, h2, List.cons_append, List.nil_append]
theorem lists_tree (rec : Rec) (f : Str → Str) (hr : ∀ t s, ∃ s', rec t s = some (.ok (f t, s'))) :
    ∀ (subs : List WikiList) (s : TokState), ∃ s', tokenizedLists rec subs s = some (.ok (listsTree f subs, s'))
  | [], s => ⟨s, rfl⟩
  | l :: rest, s => by
    obtain ⟨_, s1, h1, _⟩ := C35_token_is_the_tree rec f hr l s
    obtain ⟨s2, h2⟩ := lists_tree rec f hr rest s1
    refine ⟨s2, ?_⟩
    rw [tokenizedLists, listsTree]
    simp only [Bind.bind, h1, h2, Pure.pure]
end

/-- A tokenizer that trims the texts. -/
example : (∀ t s, ∃ s', (fun t => (pure (trimSpace t) : TokM Str)) t s = some (.ok (trimSpace t, s'))) ∧
    (WikiList.mk .star [.entry .star b!" a" [.mk .hash [.entry .hash b!"b" []]], .entry .star b!"c" []]).tree trimSpace =
      .mk .unordered [.mk .normal b!"a" [.mk .ordered [.mk .normal b!"b" []]], .mk .normal b!"c" []] :=
  ⟨fun _ s => ⟨s, rfl⟩, rfl⟩

/-- A text with two lists: the first one with three levels, different kinds and a second list in an item, the second one
a description list with a heading and an item in one line. -/
def listDoc : List ListBlock :=
  [.line b!"Some text:",
   .list (.mk .star [.entry .star b!" a" [.mk .hash [.entry .hash b!"b" [], .entry .hash b!" c"
      [.mk .colon [.hull [.mk .star [.entry .star b!"d" []]]]]], .mk .semicolon [.entry .semicolon b!"e" []]],
      .entry .star b!"" []])
    [b!"* a ", b!"*#b", b!" *# c", b!"*#:*d", b!"*;e", b!"* "],
   .list (.mk .semicolon [.pair b!" f " b!" g" [.mk .hash [.entry .hash b!"h" []]], .entry .colon b!"http://i" []])
    [b!"; f : g", b!":#h", b!":http://i"],
   .line b!""]

example : listDoc ≠ [] ∧ blocksWellFormed listDoc := by
  refine ⟨by simp [listDoc], ?_⟩
  have hm : ∀ (p : ListMark → Prop), p .star → p .hash → p .semicolon → p .colon → ∀ m, p m := by
    intro p a b c d m; cases m <;> assumption
  have hi : ∀ t : Str, (∀ m : ListMark, t.head? ≠ some m.char) → (∀ c ∈ spaceChars, ¬ c <:+ t) → ItemText t := by
    intro t h1 h2
    exact ⟨fun m u h => h1 m (by rw [h]; rfl), h2⟩
  have hl : ∀ t : Str, (∀ m : ListMark, (trimSpace t).head? ≠ some m.char) → ∀ (m : ListMark) (u : Str),
      trimSpace t ≠ m.char :: u := fun t h m u he => h m (by rw [he]; rfl)
  have hnc : ∀ (k : ListMark) (t : Str), (∀ m : ListMark, k.Allows m → (trimSpace t).head? ≠ some m.char) →
      NotContinued k t := fun k t h m hm u he => h m hm (by rw [he]; rfl)
  simp only [listDoc, blocksWellFormed, WikiList.WellFormed, itemsWellFormed, WikiItem.WellFormed, listsWellFormed,
    WikiList.lines, itemsLines, WikiItem.lines, listsLines, indented, List.flatMap_cons, ListBlock.lines,
    List.cons_append, List.nil_append, List.head?_cons, Option.mem_some_iff, forall_eq', WikiList.mark,
    List.flatMap_nil, List.head?_nil, Option.not_mem_none, false_implies, implies_true, and_true, true_and]
  repeat' apply And.intro
  all_goals first
    | (apply hi <;> [(apply hm <;> decide); decide])
    | (apply hl; apply hm <;> decide)
    | (apply hnc; apply hm <;> decide)
    | decide

/-- **C35** is false for texts that begin with a list character behind a space: the number sign becomes a numbered list
within the item. -/
theorem C35_text_of_item_becomes_a_list :
    articleBody exampleEnv htmlEnv 30 b!"* #1 in Berlin" =
      some (.ok b!"<ul>\n<li>\n<ol>\n<li>\n1 in Berlin\n</li>\n</ol>\n</li>\n</ul>") := by
  decide +kernel

end Verif.Props
