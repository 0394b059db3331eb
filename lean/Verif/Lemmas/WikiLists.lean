import Verif.Lemmas.TokMonad
import Verif.Lemmas.WikiLinks
import Verif.Lemmas.Strings
import Verif.Lemmas.Space
import Verif.Spec.WikiLists

/-! Lemmas for lists. -/

namespace Verif.Model
open Verif.Go Verif.Spec
open scoped List

theorem belongsTo_iff (m c : ListMark) (t : Str) : belongsTo (c.char :: t) m.char = true ↔ m.Allows c := by
  cases m <;> cases c <;> simp [belongsTo, ListMark.char, ListMark.Allows]

theorem belongsTo_true {line : Str} {m : ListMark} (h : belongsTo line m.char = true) :
    ∃ c t, line = ListMark.char c :: t ∧ m.Allows c := by
  cases line with
  | nil => simp [belongsTo] at h
  | cons x t =>
    have : ∃ c, ListMark.char c = x := by
      cases m <;> simp [belongsTo, ListMark.char] at h
      · exact ⟨.star, (of_decide_eq_true h).symm⟩
      · exact ⟨.hash, (of_decide_eq_true h).symm⟩
      · rcases h with h | h
        · exact ⟨.colon, h.symm⟩
        · exact ⟨.semicolon, h.symm⟩
      · exact ⟨.colon, (of_decide_eq_true h).symm⟩
    obtain ⟨c, rfl⟩ := this
    exact ⟨c, t, rfl, (belongsTo_iff m c t).mp h⟩

theorem isListChar_char (m : ListMark) : isListChar m.char = true := by cases m <;> decide

theorem isListChar_true {x : Byte} (h : isListChar x = true) : ∃ m, ListMark.char m = x := by
  simp only [isListChar, Bool.or_eq_true, decide_eq_true_eq] at h
  rcases h with ((h | h) | h) | h
  · exact ⟨.star, h.symm⟩
  · exact ⟨.hash, h.symm⟩
  · exact ⟨.semicolon, h.symm⟩
  · exact ⟨.colon, h.symm⟩

/-- The text does not end with white space. -/
def CleanEnd (s : Str) : Prop := ∀ c ∈ spaceChars, ¬ c <:+ s

theorem space_not_mark (m : ListMark) : ∀ c ∈ spaceChars, ¬ c.head? = some m.char := by
  cases m <;> decide

theorem cleanEnd_cons {m : ListMark} {t : Str} (h : CleanEnd t) : CleanEnd (m.char :: t) := by
  intro c hc hs
  rcases List.suffix_cons_iff.mp hs with rfl | hs
  · exact space_not_mark m _ hc rfl
  · exact h c hc hs

theorem trimSpace_cons {m : ListMark} {t : Str} (h : CleanEnd (m.char :: t)) :
    trimSpace (m.char :: t) = m.char :: t := by
  refine trimSpace_of_clean (fun c hc hp => ?_) h
  have hne := spaceChars_ne c hc
  obtain ⟨x, xs, rfl⟩ := List.exists_cons_of_ne_nil hne
  obtain ⟨u, hu⟩ := hp
  simp only [List.cons_append, List.cons.injEq] at hu
  exact space_not_mark m _ hc (by simp [hu.1])

mutual
theorem lines_shape : ∀ (l : WikiList), l.WellFormed →
    ∀ line ∈ l.lines, CleanEnd line ∧ ∃ c t, line = ListMark.char c :: t ∧ l.mark.Allows c
  | .mk m items, h, line, hl => by
    rw [WikiList.WellFormed] at h
    rw [WikiList.lines] at hl
    exact itemsLines_shape m true items h.2 line hl
theorem itemsLines_shape (m : ListMark) (first : Bool) : ∀ (items : List WikiItem), itemsWellFormed m first items →
    ∀ line ∈ itemsLines m items, CleanEnd line ∧ ∃ c t, line = ListMark.char c :: t ∧ m.Allows c
  | [], _, line, hl => by simp [itemsLines] at hl
  | item :: rest, h, line, hl => by
    rw [itemsWellFormed] at h
    rw [itemsLines, List.mem_append] at hl
    rcases hl with hl | hl
    · exact itemLines_shape m first item h.1 line hl
    · exact itemsLines_shape m false rest h.2 line hl
theorem itemLines_shape (m : ListMark) (first : Bool) : ∀ (item : WikiItem), item.WellFormed m first →
    ∀ line ∈ item.lines m, CleanEnd line ∧ ∃ c t, line = ListMark.char c :: t ∧ m.Allows c
  | .hull subs, h, line, hl => by
    rw [WikiItem.WellFormed] at h
    rw [WikiItem.lines, indented, List.mem_map] at hl
    obtain ⟨x, hx, rfl⟩ := hl
    have := listsLines_shape subs h.2.2 x hx
    exact ⟨cleanEnd_cons this.1, m, x, rfl, .inl rfl⟩
  | .entry c text subs, h, line, hl => by
    rw [WikiItem.WellFormed] at h
    obtain ⟨h1, h2, _, h4⟩ := h
    have hc : m.Allows c := by
      split at h1
      · exact .inl h1
      · exact h1
    rw [WikiItem.lines, indented, List.mem_cons, List.mem_map] at hl
    rcases hl with rfl | ⟨x, hx, rfl⟩
    · exact ⟨cleanEnd_cons h2.last, c, text, rfl, hc⟩
    · exact ⟨cleanEnd_cons (listsLines_shape subs h4 x hx).1, c, x, rfl, hc⟩
  | .pair a b subs, h, line, hl => by
    rw [WikiItem.WellFormed] at h
    obtain ⟨rfl, h2, h3, h4⟩ := h
    rw [WikiItem.lines, indented, List.mem_cons, List.mem_map] at hl
    rcases hl with rfl | ⟨x, hx, rfl⟩
    · exact ⟨cleanEnd_cons (m := .semicolon) h3.last, .semicolon, _, rfl, .inl rfl⟩
    · exact ⟨cleanEnd_cons (listsLines_shape subs h4 x hx).1, .colon, x, rfl, .inr ⟨rfl, rfl⟩⟩
theorem listsLines_shape : ∀ (subs : List WikiList), listsWellFormed subs →
    ∀ line ∈ listsLines subs, CleanEnd line ∧ ∃ c t, line = ListMark.char c :: t
  | [], _, line, hl => by simp [listsLines] at hl
  | l :: rest, h, line, hl => by
    rw [listsWellFormed] at h
    rw [listsLines, List.mem_append] at hl
    rcases hl with hl | hl
    · obtain ⟨h1, c, t, h2, _⟩ := lines_shape l h.1 line hl
      exact ⟨h1, c, t, h2⟩
    · exact listsLines_shape rest h.2.2 line hl
end

mutual
theorem lines_head : ∀ (l : WikiList), l.WellFormed → ∃ t more, l.lines = (l.mark.char :: t) :: more
  | .mk m [], h => by rw [WikiList.WellFormed] at h; exact absurd rfl h.1
  | .mk m (item :: rest), h => by
    rw [WikiList.WellFormed, itemsWellFormed] at h
    obtain ⟨t, more, he⟩ := itemLines_head m item h.2.1
    exact ⟨t, more ++ itemsLines m rest, by rw [WikiList.lines, itemsLines, he]; rfl⟩
theorem itemLines_head (m : ListMark) : ∀ (item : WikiItem), item.WellFormed m true →
    ∃ t more, item.lines m = (m.char :: t) :: more
  | .hull [], h => by rw [WikiItem.WellFormed] at h; exact absurd rfl h.2.1
  | .hull (l :: rest), h => by
    rw [WikiItem.WellFormed, listsWellFormed] at h
    obtain ⟨t, more, he⟩ := lines_head l h.2.2.1
    exact ⟨l.mark.char :: t, _, by rw [WikiItem.lines, listsLines, he]; rfl⟩
  | .entry c text subs, h => by
    rw [WikiItem.WellFormed, if_pos rfl] at h
    rw [WikiItem.lines, h.1]
    exact ⟨_, _, rfl⟩
  | .pair a b subs, h => by
    rw [WikiItem.WellFormed] at h
    rw [WikiItem.lines, h.1]
    exact ⟨_, _, rfl⟩
end

/-- A bound for the number of steps. -/
def weight (lines : List Str) : Nat := (lines.map fun l => 2 * l.length + 1).sum

@[simp] theorem weight_append (a b : List Str) : weight (a ++ b) = weight a + weight b := by simp [weight]

@[simp] theorem weight_cons (a : Str) (b : List Str) : weight (a :: b) = 2 * a.length + 1 + weight b := by simp [weight]

@[simp] theorem weight_nil : weight [] = 0 := rfl

theorem weight_indented (c : ListMark) (a : List Str) : weight (indented c a) = weight a + 2 * a.length := by
  unfold indented
  induction a with
  | nil => rfl
  | cons x xs ih => simp only [List.map_cons, weight_cons, ih, List.length_cons]; omega

theorem foldl_addSubList (p : Byte) (acc : List ItemTok) (type : ItemType) (content : Str) (ls subs : List ListTok) :
    subs.foldl (addSubList p) (acc ++ [.mk type content ls]) = acc ++ [.mk type content (ls ++ subs)] := by
  induction subs generalizing ls with
  | nil => simp
  | cons x xs ih =>
    rw [List.foldl_cons, addSubList]
    simp only [List.getLast?_append, List.getLast?_singleton, Option.some_or, List.dropLast_concat]
    rw [ih]
    simp

theorem foldl_addSubList_hull (m : ListMark) (l : ListTok) (subs : List ListTok) :
    (l :: subs).foldl (addSubList m.char) [] = [.mk m.itemType [] (l :: subs)] := by
  rw [List.foldl_cons, addSubList]
  have := foldl_addSubList m.char [] (dummyItemType m.char) [] [l] subs
  simp only [List.nil_append] at this
  have e : dummyItemType m.char = m.itemType := by cases m <;> rfl
  rw [← e]
  exact this

theorem takeWhile_all_append {α : Type} {p : α → Bool} {a b : List α} (h1 : ∀ x ∈ a, p x = true)
    (h2 : ∀ x ∈ b.head?, p x = false) : (a ++ b).takeWhile p = a := by
  rw [List.takeWhile_append_of_pos h1]
  cases b with
  | nil => simp
  | cons x xs => simp [h2 x (by simp)]

/-- Behind an item there is nothing that continues its sub lists. -/
def ItemEnd (rest : List Str) : Prop := ∀ line ∈ rest.head?, ∃ c text, line = c :: text ∧ ItemText text

theorem lineItems_entry (rec : Rec) (c : ListMark) (text : Str) (h : c = .semicolon → (0x3A : Byte) ∉ text) :
    lineItems rec c.char text = (do
      let t ← rec text
      pure [.mk c.itemType t []]) := by
  cases c with
  | star => rfl
  | hash => rfl
  | colon => rfl
  | semicolon =>
    rw [lineItems, if_pos (by rfl), cut_single_none (h rfl)]
    rfl

theorem lineItems_pair (rec : Rec) (a b : Str) (h : (0x3A : Byte) ∉ a) :
    lineItems rec 0x3B (a ++ b!":" ++ b) = (do
      let x ← rec a
      let y ← rec b
      pure [.mk .descriptionHead x [], .mk .descriptionItem y []]) := by
  rw [lineItems, if_pos rfl, List.append_assoc, List.singleton_append, cut_single b h]

/-- One line with text. -/
theorem listItems_text (rec : Rec) (fuel : Nat) (p c : Byte) (text : Str) (rest : List Str) (acc : List ItemTok)
    (h : ItemText text) :
    listItems rec (fuel + 1) p ((c :: text) :: rest) acc = (do
      let new ← lineItems rec c text
      listItems rec fuel p rest (acc ++ new)) := by
  cases text with
  | nil => rw [listItems]
  | cons d t =>
    rw [listItems, if_neg]
    intro hd
    obtain ⟨m, rfl⟩ := isListChar_true hd
    exact h.first m t rfl

theorem map_tail_indented (c : ListMark) (a : List Str) : (indented c a).map List.tail = a := by
  rw [indented, List.map_map]; exact List.map_id' a

theorem indented_append (c : ListMark) (a b : List Str) : indented c (a ++ b) = indented c a ++ indented c b := by
  rw [indented, List.map_append]; rfl

theorem map_trimSpace_lines {l : WikiList} (h : l.WellFormed) : l.lines.map trimSpace = l.lines := by
  refine (List.map_congr_left (g := id) fun x hx => ?_).trans (List.map_id _)
  obtain ⟨h1, c, t, rfl, _⟩ := lines_shape l h x hx
  exact trimSpace_cons h1

mutual
theorem tokenizeList_ok (rec : Rec) : ∀ (l : WikiList) (_ : l.WellFormed) (fuel : Nat) (written rest : List Str)
    (_ : written.map trimSpace = l.lines) (_ : ∀ next ∈ rest.head?, NotContinued l.mark next)
    (_ : weight l.lines + 2 ≤ fuel),
    tokenizeList rec fuel (written ++ rest) l.mark.char = (do
      let (t, k) ← tokenizedList rec l
      pure (t, k, written.length))
  | .mk m items, h, fuel, written, rest, hw, hr, hf => by
    obtain ⟨f, rfl⟩ : ∃ f, fuel = f + 1 := ⟨fuel - 1, by omega⟩
    have h' := h
    rw [WikiList.WellFormed] at h'
    have hl : (((written ++ rest).map trimSpace).takeWhile fun l => belongsTo l m.char) = itemsLines m items := by
      rw [List.map_append, hw]
      refine takeWhile_all_append (fun x hx => ?_) (fun x hx => ?_)
      · obtain ⟨_, c, t, rfl, hc⟩ := lines_shape _ h x hx
        exact (belongsTo_iff m c t).mpr hc
      · cases rest with
        | nil => simp at hx
        | cons y ys =>
          simp only [List.map_cons, List.head?_cons, Option.mem_some_iff] at hx
          subst hx
          rw [Bool.eq_false_iff]
          intro hb
          obtain ⟨c, t, he, hc⟩ := belongsTo_true hb
          exact hr y (by simp) c hc t he
    rw [tokenizeList, tokenizedList]
    simp only [WikiList.mark, hl]
    rw [items_ok rec m items true h'.2 f [] (fun _ => rfl) (by rw [WikiList.lines] at hf; omega)]
    have hlen : (itemsLines m items).length = written.length := by
      have := congrArg List.length hw
      rw [List.length_map, WikiList.lines] at this
      exact this.symm
    have hk : listTokenKey m.char = m.kindName := by cases m <;> rfl
    have hk' : listKind m.char = m.kind := by cases m <;> rfl
    simp only [newToken, bind_assoc, pure_bind, List.nil_append, hlen, hk, hk']
theorem items_ok (rec : Rec) (m : ListMark) : ∀ (items : List WikiItem) (first : Bool)
    (_ : itemsWellFormed m first items) (fuel : Nat) (acc : List ItemTok) (_ : first = true → acc = [])
    (_ : weight (itemsLines m items) + 1 ≤ fuel),
    listItems rec fuel m.char (itemsLines m items) acc = (do
      let r ← tokenizedItems rec m items
      pure (acc ++ r))
  | [], first, _, fuel, acc, _, hf => by
    obtain ⟨f, rfl⟩ : ∃ f, fuel = f + 1 := ⟨fuel - 1, by omega⟩
    rw [itemsLines, listItems, tokenizedItems, pure_bind, List.append_nil]
  | item :: rest, first, h, fuel, acc, ha, hf => by
    rw [itemsWellFormed] at h
    rw [itemsLines]
    have hend : ItemEnd (itemsLines m rest) := by
      intro line hline
      cases rest with
      | nil => simp [itemsLines] at hline
      | cons i is =>
        have h2 := h.2
        rw [itemsWellFormed] at h2
        cases i with
        | hull subs => rw [WikiItem.WellFormed] at h2; exact absurd h2.1.1 (by simp)
        | entry c text subs =>
          rw [WikiItem.WellFormed] at h2
          rw [itemsLines, WikiItem.lines] at hline
          simp only [List.cons_append, List.head?_cons, Option.mem_some_iff] at hline
          exact ⟨_, _, hline.symm, h2.1.2.1⟩
        | pair a b subs =>
          rw [WikiItem.WellFormed] at h2
          rw [itemsLines, WikiItem.lines] at hline
          simp only [List.cons_append, List.head?_cons, Option.mem_some_iff] at hline
          exact ⟨_, _, hline.symm, by simpa using h2.1.2.2.1⟩
    rw [item_ok rec m item first h.1 (itemsLines m rest) hend
      (fun acc' => do let r ← tokenizedItems rec m rest; pure (acc' ++ r)) (fun fuel' acc' hf' => ?_) fuel acc ha (by
        rw [itemsLines] at hf; exact hf)]
    · rw [tokenizedItems]
      simp only [bind_assoc, pure_bind, List.append_assoc]
    · exact items_ok rec m rest false h.2 fuel' acc' (by simp) hf'
theorem item_ok (rec : Rec) (m : ListMark) : ∀ (item : WikiItem) (first : Bool) (_ : item.WellFormed m first)
    (rest : List Str) (_ : ItemEnd rest) (k : List ItemTok → TokM (List ItemTok))
    (_ : ∀ fuel acc, weight rest + 1 ≤ fuel → listItems rec fuel m.char rest acc = k acc)
    (fuel : Nat) (acc : List ItemTok) (_ : first = true → acc = [])
    (_ : weight (item.lines m ++ rest) + 1 ≤ fuel),
    listItems rec fuel m.char (item.lines m ++ rest) acc = (do
      let new ← tokenizedItem rec m item
      k (acc ++ new))
  | .hull [], _, h, _, _, _, _, _, _, _, _ => by rw [WikiItem.WellFormed] at h; exact absurd rfl h.2.1
  | .hull (l :: subs), first, h, rest, he, k, hk, fuel, acc, ha, hf => by
    rw [WikiItem.WellFormed] at h
    rw [WikiItem.lines] at hf ⊢
    rw [lists_ok rec m m (l :: subs) h.2.2 rest he k hk fuel acc hf, ha h.1, tokenizedItem, tokenizedLists]
    simp only [bind_assoc, pure_bind, foldl_addSubList_hull, List.nil_append]
  | .entry c text subs, first, h, rest, he, k, hk, fuel, acc, ha, hf => by
    rw [WikiItem.WellFormed] at h
    rw [WikiItem.lines] at hf ⊢
    obtain ⟨f, rfl⟩ : ∃ f, fuel = f + 1 := ⟨fuel - 1, by omega⟩
    rw [List.cons_append, listItems_text rec f m.char c.char text _ acc h.2.1, lineItems_entry rec c text h.2.2.1,
      tokenizedItem]
    simp only [bind_assoc, pure_bind]
    refine bind_congr fun t => ?_
    rw [lists_ok rec m c subs h.2.2.2 rest he k hk f _ (by
      simp only [List.cons_append, weight_cons, List.length_cons] at hf
      omega)]
    simp only [foldl_addSubList, List.nil_append]
  | .pair a b subs, first, h, rest, he, k, hk, fuel, acc, ha, hf => by
    rw [WikiItem.WellFormed] at h
    rw [WikiItem.lines] at hf ⊢
    obtain ⟨f, rfl⟩ : ∃ f, fuel = f + 1 := ⟨fuel - 1, by omega⟩
    rw [List.cons_append, listItems_text rec f m.char 0x3B _ _ acc h.2.2.1, lineItems_pair rec a b h.2.1, tokenizedItem]
    simp only [bind_assoc, pure_bind]
    refine bind_congr fun x => bind_congr fun y => ?_
    rw [lists_ok rec m .colon subs h.2.2.2 rest he k hk f _ (by
      simp only [List.cons_append, weight_cons, List.length_cons] at hf
      omega)]
    have : ∀ ls, ls.foldl (addSubList m.char) (acc ++ [ItemTok.mk .descriptionHead x [], .mk .descriptionItem y []]) =
        acc ++ [ItemTok.mk .descriptionHead x [], .mk .descriptionItem y ls] := by
      intro ls
      have := foldl_addSubList m.char (acc ++ [ItemTok.mk .descriptionHead x []]) .descriptionItem y [] ls
      simpa using this
    simp only [this]
theorem lists_ok (rec : Rec) (m c : ListMark) : ∀ (subs : List WikiList) (_ : listsWellFormed subs)
    (rest : List Str) (_ : ItemEnd rest) (k : List ItemTok → TokM (List ItemTok))
    (_ : ∀ fuel acc, weight rest + 1 ≤ fuel → listItems rec fuel m.char rest acc = k acc)
    (fuel : Nat) (acc : List ItemTok)
    (_ : weight (indented c (listsLines subs) ++ rest) + 1 ≤ fuel),
    listItems rec fuel m.char (indented c (listsLines subs) ++ rest) acc = (do
      let ls ← tokenizedLists rec subs
      k (ls.foldl (addSubList m.char) acc))
  | [], _, rest, _, k, hk, fuel, acc, hf => by
    rw [listsLines, indented, List.map_nil, List.nil_append, tokenizedLists, pure_bind, List.foldl_nil]
    exact hk fuel acc (by simpa [listsLines, indented] using hf)
  | l :: subs, h, rest, he, k, hk, fuel, acc, hf => by
    obtain ⟨f, rfl⟩ : ∃ f, fuel = f + 1 := ⟨fuel - 1, by omega⟩
    rw [listsWellFormed] at h
    obtain ⟨h1, h2, h3⟩ := h
    have hshape := lines_shape l h1
    obtain ⟨t, more, hhead⟩ := lines_head l h1
    have hsub : (((indented c (l.lines ++ listsLines subs) ++ rest).map List.tail).takeWhile
        fun x => belongsTo x l.mark.char) = l.lines := by
      rw [List.map_append, map_tail_indented, List.append_assoc]
      refine takeWhile_all_append (fun x hx => ?_) (fun x hx => ?_)
      · obtain ⟨_, c', t', rfl, hc⟩ := hshape x hx
        exact (belongsTo_iff _ _ _).mpr hc
      · rw [Bool.eq_false_iff]
        intro hb
        obtain ⟨c', t', rfl, hc⟩ := belongsTo_true hb
        cases subs with
        | nil =>
          rw [listsLines, List.nil_append] at hx
          cases rest with
          | nil => simp at hx
          | cons y ys =>
            obtain ⟨z, text, rfl, ht⟩ := he y (by simp)
            simp only [List.map_cons, List.tail_cons, List.head?_cons, Option.mem_some_iff] at hx
            exact ht.first c' t' hx
        | cons l' subs' =>
          have h3' := h3
          rw [listsWellFormed] at h3'
          obtain ⟨t2, more2, hh2⟩ := lines_head l' h3'.1
          rw [listsLines, hh2] at hx
          simp only [List.cons_append, List.head?_cons, Option.mem_some_iff, List.cons.injEq] at hx
          have hcc : c' = l'.mark := by
            have := hx.1
            revert this
            cases c' <;> cases l'.mark <;> simp [ListMark.char]
          exact h2 l' (by simp) (hcc ▸ hc)
    have hstep : listItems rec (f + 1) m.char (indented c (l.lines ++ listsLines subs) ++ rest) acc = (do
        let (subList, _, _) ← tokenizeList rec f l.lines l.mark.char
        listItems rec f m.char (indented c (listsLines subs) ++ rest) (addSubList m.char acc subList)) := by
      have hd : (indented c (l.lines ++ listsLines subs) ++ rest).drop l.lines.length =
          indented c (listsLines subs) ++ rest := by
        rw [indented_append, List.append_assoc]
        rw [show l.lines.length = (indented c l.lines).length by simp [indented], List.drop_left]
      have hc : ∃ more', indented c (l.lines ++ listsLines subs) ++ rest =
          (c.char :: l.mark.char :: t) :: more' := ⟨_, by rw [hhead]; rfl⟩
      obtain ⟨more', hc⟩ := hc
      rw [hc, listItems, if_pos (isListChar_char _), ← hc]
      simp only [hsub, hd]
    rw [listsLines, hstep, tokenizedLists]
    rw [listsLines, indented_append, List.append_assoc, weight_append] at hf
    have hw := weight_indented c l.lines
    have hlen : 1 ≤ l.lines.length := by rw [hhead]; simp
    have := tokenizeList_ok rec l h1 f l.lines [] (map_trimSpace_lines h1) (by simp) (by omega)
    rw [List.append_nil] at this
    rw [this]
    simp only [bind_assoc, pure_bind, List.foldl_cons]
    refine bind_congr fun p => ?_
    rw [lists_ok rec m c subs h3 rest he k hk f _ (by omega)]
end

theorem tokenizedBlocks_ok (rec : Rec) (blocks : List ListBlock) (h : blocksWellFormed blocks) (fuel : Nat)
    (hf : (blocks.map fun b => weight (b.lines.map trimSpace) + 3).sum + 1 ≤ fuel) :
    parseListLines rec fuel (blocks.flatMap ListBlock.lines) = tokenizedBlocks rec blocks := by
  induction blocks generalizing fuel with
  | nil =>
    obtain ⟨f, rfl⟩ : ∃ f, fuel = f + 1 := ⟨fuel - 1, by simp at hf; omega⟩
    rfl
  | cons b rest ih =>
    obtain ⟨f, rfl⟩ : ∃ f, fuel = f + 1 := ⟨fuel - 1, by simp at hf; omega⟩
    simp only [List.map_cons, List.sum_cons] at hf
    cases b with
    | line l =>
      rw [blocksWellFormed] at h
      rw [List.flatMap_cons, ListBlock.lines, List.singleton_append, tokenizedBlocks, ← ih h.2.2 f (by omega)]
      conv_lhs => unfold parseListLines
      rcases hc : trimSpace l with _ | ⟨c, t⟩
      · simp only
      · simp only
        rw [if_neg]
        intro hl
        obtain ⟨m, rfl⟩ := isListChar_true hl
        exact h.2.1 m t hc
    | list l written =>
      rw [blocksWellFormed] at h
      obtain ⟨h1, _, h2, h3, h4⟩ := h
      rw [List.flatMap_cons, ListBlock.lines, tokenizedBlocks, ← ih h4 f (by omega)]
      obtain ⟨t, more, hh⟩ := lines_head l h1
      cases written with
      | nil => rw [hh] at h2; simp at h2
      | cons w ws =>
        have hw : trimSpace w = l.mark.char :: t := by
          rw [hh] at h2
          simp only [List.map_cons, List.cons.injEq] at h2
          exact h2.1
        have htl := tokenizeList_ok rec l h1 f (w :: ws) (rest.flatMap ListBlock.lines) h2 h3 (by
          simp only [ListBlock.lines, h2] at hf; omega)
        rw [List.cons_append] at htl ⊢
        conv_lhs => unfold parseListLines
        simp only [hw]
        rw [if_pos (isListChar_char _), htl]
        simp only [bind_assoc, pure_bind]
        rw [show ∀ r : List Str, (w :: (ws ++ r)).drop (w :: ws).length = r from fun r => by
          rw [← List.cons_append, List.drop_left]]

end Verif.Model
