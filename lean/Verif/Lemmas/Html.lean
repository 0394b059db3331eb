import Verif.Spec.Html
import Verif.Lemmas.Expand
import Verif.Lemmas.Space

/-! Helper lemmas about HTML documents. -/

namespace Verif.Model
open Verif.Go Verif.Spec
open scoped List

/-! ### Written documents -/

theorem written_append {a b : List HtmlPart} {s t : Str} (ha : Written a s) (hb : Written b t) : Written (a ++ b) (s ++ t) := by
  induction ha with
  | nil => exact hb
  | space hc _ ih => exact .space hc ih
  | text ht _ ih => rw [List.append_assoc]; exact .text ht ih
  | tag hat _ ih => rw [List.append_assoc]; exact .tag hat ih
  | close _ ih => rw [List.append_assoc]; exact .close ih

theorem written_white {w : Str} (hw : ∀ c ∈ w, White c) : Written [] w := by
  induction w with
  | nil => exact .nil
  | cons c w ih => exact .space (hw c (by simp)) (ih fun d hd => hw d (by simp [hd]))

theorem written_pad {es : List HtmlPart} {w s v : Str} (hw : ∀ c ∈ w, White c) (h : Written es s) (hv : ∀ c ∈ v, White c) :
    Written es (w ++ s ++ v) := by
  have := written_append (written_append (written_white hw) h) (written_white hv)
  simpa using this

theorem white_nl : ∀ c ∈ (b!"\n" : Str), White c := by
  intro c hc
  have : c = 0x0A := by simpa using hc
  exact Or.inr (Or.inl this)

theorem written_lines {es : List HtmlPart} {s : Str} (h : Written es s) : Written es (b!"\n" ++ s ++ b!"\n") :=
  written_pad white_nl h white_nl

theorem written_element {name a s : Str} {attributes : List Str} {inner : List HtmlPart} (ha : Attributes attributes a)
    (h : Written inner s) : Written (element name attributes inner) (b!"<" ++ name ++ a ++ b!">" ++ s ++ (b!"</" ++ name ++ b!">")) := by
  have := Written.tag (name := name) ha (written_append h (Written.close (name := name) .nil))
  simpa [element] using this

theorem attributes_nil : Attributes [] [] := .nil (by simp)

theorem attributes_one (a : Str) : Attributes [a] (b!" " ++ a) := by
  have := Attributes.cons (w := b!" ") (a := a) (by intro c hc; exact Or.inl (by simpa using hc)) (by decide) attributes_nil
  simpa using this

theorem attributes_space (a : Str) {l : List Str} {s : Str} (h : Attributes l s) : Attributes (a :: l) (b!" " ++ a ++ s) :=
  .cons (by intro c hc; exact Or.inl (by simpa using hc)) (by decide) h

theorem attributes_white {l : List Str} {s : Str} (h : Attributes l s) : Attributes l (0x20 :: s) := by
  cases h with
  | nil hw =>
    refine .nil ?_
    intro c hc
    rcases List.mem_cons.mp hc with rfl | hc
    · exact Or.inl rfl
    · exact hw c hc
  | @cons w a s l hw hne h =>
    refine .cons (w := 0x20 :: w) ?_ (by simp) h
    intro c hc
    rcases List.mem_cons.mp hc with rfl | hc
    · exact Or.inl rfl
    · exact hw c hc

theorem attributes_join (l : List Str) : Attributes (l.filter (· ≠ [])) (b!" " ++ join b!" " l) := by
  induction l with
  | nil => exact attributes_white attributes_nil
  | cons a l ih =>
    cases l with
    | nil =>
      by_cases ha : a = []
      · subst ha; exact attributes_white attributes_nil
      · simpa [ha, join] using attributes_one a
    | cons b l =>
      have e : join b!" " (a :: b :: l) = a ++ (b!" " ++ join b!" " (b :: l)) := by simp [join]
      by_cases ha : a = []
      · subst ha
        rw [e]
        have := attributes_white ih
        simpa using this
      · rw [e]
        have := attributes_space a ih
        simpa [ha] using this

theorem attributes_cell (l : List Str) :
    Attributes (l.filter (· ≠ [])) (if join b!" " l ≠ [] then b!" " ++ join b!" " l else join b!" " l) := by
  split
  · exact attributes_join l
  · rename_i h
    have h : join b!" " l = [] := by simpa using h
    rw [h]
    have : l.filter (· ≠ []) = [] := by
      rw [List.filter_eq_nil_iff]
      cases l with
      | nil => simp
      | cons a l =>
        cases l with
        | nil => simpa [join] using h
        | cons b l => simp [join] at h
    rw [this]
    exact attributes_nil

theorem written_join {ess : List (List HtmlPart)} {parts : List Str} (h : List.Forall₂ Written ess parts) :
    Written ess.flatten (join b!"\n" parts) := by
  induction h with
  | nil => exact .nil
  | @cons l p ls ps h hs ih =>
    cases hs with
    | nil => simpa [Verif.Go.join] using h
    | @cons l' p' ls' ps' h' hs' =>
      have e : Verif.Go.join b!"\n" (p :: p' :: ps') = p ++ (b!"\n" ++ Verif.Go.join b!"\n" (p' :: ps')) := by simp [Verif.Go.join]
      rw [e, List.flatten_cons]
      exact written_append h (by simpa using written_append (written_white white_nl) ih)

/-! ### The first tag -/

/-- The name of the first tag does not begin with the letter l. -/
def FirstTag : List HtmlPart → Prop
  | [] => True
  | .text _ :: es => FirstTag es
  | .close _ :: _ => True
  | .tag name _ :: _ => ∃ c rest, name = c :: rest ∧ c ≠ 0x6C

theorem firstTag_append {a b : List HtmlPart} (ha : FirstTag a) (hb : FirstTag b) : FirstTag (a ++ b) := by
  induction a with
  | nil => exact hb
  | cons e a ih =>
    cases e with
    | text s => exact ih ha
    | tag name attributes => exact ha
    | close name => trivial

theorem firstTag_of_names {es : List HtmlPart} (h : ∀ name attributes, .tag name attributes ∈ es → ∃ c rest, name = c :: rest ∧ c ≠ 0x6C) :
    FirstTag es := by
  induction es with
  | nil => trivial
  | cons e es ih =>
    cases e with
    | text s => exact ih fun n a hm => h n a (by simp [hm])
    | tag name attributes => exact h name attributes (by simp)
    | close name => trivial

theorem written_no_li {es : List HtmlPart} {s : Str} (h : Written es s) : FirstTag es → ∀ w r, s = w ++ (b!"<li" ++ r) → (0x3C : Byte) ∉ w → False := by
  induction h with
  | nil => intro _ w r e _; simp at e
  | @space c es s hc h ih =>
    intro hf w r e hw
    cases w with
    | nil =>
      injection e with e1 _
      rw [e1] at hc
      rcases hc with h | h | h <;> exact absurd h (by decide)
    | cons d w =>
      injection e with e1 e2
      exact ih hf w r e2 fun hm => hw (by simp [hm])
  | @text t es s ht h ih =>
    intro hf w r e hw
    rcases List.append_eq_append_iff.mp e with ⟨a, e1, e2⟩ | ⟨a, e1, e2⟩
    · exact ih hf a r e2 fun hm => hw (by rw [e1]; simp [hm])
    · cases a with
      | nil => exact ih hf [] r (by simpa using e2.symm) (by simp)
      | cons d a =>
        injection e2 with e3 _
        exact ht (by rw [e1, ← e3]; simp)
  | @tag name a attributes es s ha h ih =>
    intro hf w r e hw
    obtain ⟨c, rest, rfl, hc⟩ := hf
    cases w with
    | nil =>
      simp only [List.append_assoc, List.nil_append, List.cons_append] at e
      injection e with _ e
      injection e with e1 _
      exact hc e1
    | cons d w =>
      simp only [List.append_assoc, List.nil_append, List.cons_append] at e
      injection e with e1 _
      exact hw (by rw [← e1]; simp)
  | @close name es s h ih =>
    intro hf w r e hw
    cases w with
    | nil =>
      simp only [List.append_assoc, List.nil_append, List.cons_append] at e
      injection e with _ e
      injection e with e1 _
      exact absurd e1 (by decide)
    | cons d w =>
      simp only [List.append_assoc, List.nil_append, List.cons_append] at e
      injection e with e1 _
      exact hw (by rw [← e1]; simp)

theorem allSpace_no_lt {l : Str} (h : AllSpace spaceChars l) : (0x3C : Byte) ∉ l := by
  obtain ⟨ls, h1, rfl⟩ := h
  intro hm
  obtain ⟨c, hc, hm⟩ := List.mem_flatten.mp hm
  have : ∀ c ∈ spaceChars, (0x3C : Byte) ∉ c := by decide
  exact this c (h1 c hc) hm

theorem trimmed_no_li {es : List HtmlPart} {s : Str} (h : Written es s) (hf : FirstTag es) : hasPrefix (trimSpace s) b!"<li" = false := by
  rw [← Bool.not_eq_true, hasPrefix_iff]
  rintro ⟨t, ht⟩
  obtain ⟨-, -, l, r, hl, -, e⟩ := trimSpace_spec s
  refine written_no_li h hf l (t ++ r) ?_ (allSpace_no_lt hl)
  rw [e, ← ht]
  simp

/-! ### Nesting -/

theorem wellNested_append {st st' : List Str} {a b : List HtmlPart} (ha : WellNested st a) (hb : WellNested st' b) :
    WellNested (st ++ st') (a ++ b) := by
  induction ha with
  | nil => exact hb
  | text _ ih => exact .text ih
  | void hn _ ih => exact .void hn ih
  | opening hn _ ih => exact .opening hn ih
  | closing _ ih => exact .closing ih

theorem wellNested_element {name : Str} {attributes : List Str} {inner : List HtmlPart} (hn : name ∉ voidNames)
    (h : WellNested [] inner) : WellNested [] (element name attributes inner) :=
  .opening hn (wellNested_append h (.closing .nil))

theorem wellNested_flatMap {α : Type} {f : α → List HtmlPart} {l : List α} (h : ∀ a ∈ l, WellNested [] (f a)) :
    WellNested [] (l.flatMap f) := by
  induction l with
  | nil => exact .nil
  | cons a l ih => exact wellNested_append (h a (by simp)) (ih fun b hb => h b (by simp [hb]))

/-! ### Tokens -/

/-- The texts are expanded to documents whose first tag is not a list item. -/
def Expands (ex : Str → ExpM Str) (f : Str → List HtmlPart) (g : Str → Str) (texts : List Str) : Prop :=
  ∀ t ∈ texts, ex t = (pure (g t) : ExpM Str) ∧ Written (f t) (g t) ∧ FirstTag (f t)

theorem Expands.left {ex : Str → ExpM Str} {f : Str → List HtmlPart} {g : Str → Str} {a b : List Str} (h : Expands ex f g (a ++ b)) :
    Expands ex f g a := fun t ht => h t (by simp [ht])

theorem Expands.right {ex : Str → ExpM Str} {f : Str → List HtmlPart} {g : Str → Str} {a b : List Str} (h : Expands ex f g (a ++ b)) :
    Expands ex f g b := fun t ht => h t (by simp [ht])

theorem firstTag_tag {name : Str} {attributes : List Str} {rest : List HtmlPart} (h : ∃ c r, name = c :: r ∧ c ≠ 0x6C) :
    FirstTag (.tag name attributes :: rest) := h

theorem listParts_first (f : Str → List HtmlPart) (l : ListTok) : FirstTag (listParts f l) := by
  obtain ⟨kind, items⟩ := l
  cases kind <;> (rw [listParts]; exact ⟨_, _, rfl, by decide⟩)

theorem subListsParts_first (f : Str → List HtmlPart) : ∀ ls : List ListTok, FirstTag (subListsParts f ls)
  | [] => by rw [subListsParts]; trivial
  | l :: rest => by rw [subListsParts]; exact firstTag_append (listParts_first f l) (subListsParts_first f rest)

theorem itemHtml_written {type : ItemType} {content : Str} {subLists : List ListTok} {f : Str → List HtmlPart} {s : Str}
    (h : Written (f content ++ subListsParts f subLists) s) (hf : FirstTag (f content)) :
    Written (itemParts f (.mk type content subLists)) (itemHtml type s) := by
  have hl := written_lines h
  cases type with
  | normal =>
    rw [itemParts, itemHtml]
    rw [if_neg (by rw [trimmed_no_li h (firstTag_append hf (subListsParts_first f subLists))]; simp)]
    have := written_element (name := b!"li") attributes_nil hl
    simpa using this
  | descriptionHead =>
    rw [itemParts, itemHtml]
    have := written_element (name := b!"div") (attributes_one b!"class=\"dt\"") hl
    simpa using this
  | descriptionItem =>
    rw [itemParts, itemHtml]
    have := written_element (name := b!"div") (attributes_one b!"class=\"dd\"") hl
    simpa using this

theorem listHtml_written {kind : ListKind} {items : List ItemTok} {f : Str → List HtmlPart} {s : Str}
    (h : Written (itemsParts f items) s) : Written (listParts f (.mk kind items)) (listHtml kind s) := by
  have hl := written_lines h
  cases kind with
  | unordered =>
    rw [listParts, listHtml]
    have := written_element (name := b!"ul") attributes_nil hl
    simpa using this
  | ordered =>
    rw [listParts, listHtml]
    have := written_element (name := b!"ol") attributes_nil hl
    simpa using this
  | description =>
    rw [listParts, listHtml]
    have := written_element (name := b!"div") (attributes_one b!"class=\"description-list\"") hl
    simpa using this

mutual
theorem expandList_written {ex : Str → ExpM Str} {f : Str → List HtmlPart} {g : Str → Str} : ∀ (l : ListTok), Expands ex f g (listTexts l) →
    ∃ s, expandList ex l = (pure s : ExpM Str) ∧ Written (listParts f l) s
  | .mk kind items, h => by
    obtain ⟨ps, e, w⟩ := expandItems_written items (by simpa [listTexts] using h)
    exact ⟨_, by rw [expandList, e]; rfl, listHtml_written w⟩
theorem expandItems_written {ex : Str → ExpM Str} {f : Str → List HtmlPart} {g : Str → Str} : ∀ (items : List ItemTok), Expands ex f g (itemsTexts items) →
    ∃ ps, expandItems ex items = (pure ps : ExpM (List Str)) ∧ Written (itemsParts f items) (join b!"\n" ps)
  | [], _ => ⟨[], by rw [expandItems], by rw [itemsParts]; exact .nil⟩
  | item :: rest, h => by
    rw [itemsTexts] at h
    obtain ⟨x, e1, w1⟩ := expandItem_written item h.left
    obtain ⟨xs, e2, w2⟩ := expandItems_written rest h.right
    refine ⟨x :: xs, by rw [expandItems, e1, ExpM.pure_bind, e2]; rfl, ?_⟩
    rw [itemsParts]
    cases xs with
    | nil =>
      have : Written (itemParts f item ++ itemsParts f rest) (x ++ []) := written_append w1 w2
      simpa [join] using this
    | cons y ys =>
      have e : join b!"\n" (x :: y :: ys) = x ++ (b!"\n" ++ join b!"\n" (y :: ys)) := by simp [join]
      rw [e]
      exact written_append w1 (by simpa using written_append (written_white white_nl) w2)
theorem expandItem_written {ex : Str → ExpM Str} {f : Str → List HtmlPart} {g : Str → Str} : ∀ (item : ItemTok), Expands ex f g (itemTexts item) →
    ∃ s, expandItem ex item = (pure s : ExpM Str) ∧ Written (itemParts f item) s
  | .mk type content subLists, h => by
    rw [itemTexts] at h
    obtain ⟨hc, wc, fc⟩ := h content (by simp)
    obtain ⟨xs, e2, w2⟩ := expandSubLists_written subLists (fun t ht => h t (by simp [ht]))
    refine ⟨_, by rw [expandItem, hc, ExpM.pure_bind, e2]; rfl, itemHtml_written ?_ fc⟩
    cases xs with
    | nil =>
      have : Written (f content ++ subListsParts f subLists) (g content ++ []) := written_append wc w2
      simpa [join] using this
    | cons y ys =>
      have e : join b!"\n" (g content :: y :: ys) = g content ++ (b!"\n" ++ join b!"\n" (y :: ys)) := by simp [join]
      rw [e]
      exact written_append wc (by simpa using written_append (written_white white_nl) w2)
theorem expandSubLists_written {ex : Str → ExpM Str} {f : Str → List HtmlPart} {g : Str → Str} : ∀ (ls : List ListTok), Expands ex f g (listsTexts ls) →
    ∃ ps, expandSubLists ex ls = (pure ps : ExpM (List Str)) ∧ Written (subListsParts f ls) (join b!"\n" ps)
  | [], _ => ⟨[], by rw [expandSubLists], by rw [subListsParts]; exact .nil⟩
  | l :: rest, h => by
    rw [listsTexts] at h
    obtain ⟨x, e1, w1⟩ := expandList_written l h.left
    obtain ⟨xs, e2, w2⟩ := expandSubLists_written rest h.right
    refine ⟨x :: xs, by rw [expandSubLists, e1, ExpM.pure_bind, e2]; rfl, ?_⟩
    rw [subListsParts]
    cases xs with
    | nil =>
      have : Written (listParts f l ++ subListsParts f rest) (x ++ []) := written_append w1 w2
      simpa [join] using this
    | cons y ys =>
      have e : join b!"\n" (x :: y :: ys) = x ++ (b!"\n" ++ join b!"\n" (y :: ys)) := by simp [join]
      rw [e]
      exact written_append w1 (by simpa using written_append (written_white white_nl) w2)
end

theorem mapM_written {α : Type} (step : α → ExpM Str) (parts : α → List HtmlPart) (l : List α)
    (h : ∀ a ∈ l, ∃ s, step a = (pure s : ExpM Str) ∧ Written (parts a) s) :
    ∃ ps, ExpM.mapM step l = (pure ps : ExpM (List Str)) ∧ Written (l.flatMap parts) (join b!"\n" ps) := by
  have : ∃ ps, ExpM.mapM step l = (pure ps : ExpM (List Str)) ∧ List.Forall₂ Written (l.map parts) ps := by
    induction l with
    | nil => exact ⟨[], rfl, .nil⟩
    | cons a l ih =>
      obtain ⟨s, e, w⟩ := h a (by simp)
      obtain ⟨ps, e2, w2⟩ := ih fun b hb => h b (by simp [hb])
      exact ⟨s :: ps, by rw [ExpM.mapM, e, ExpM.pure_bind, e2]; rfl, .cons w w2⟩
  obtain ⟨ps, e, w⟩ := this
  exact ⟨ps, e, by rw [List.flatMap_def]; exact written_join w⟩

theorem expandCol_written {ex : Str → ExpM Str} {f : Str → List HtmlPart} {g : Str → Str} (col : TableCol) (h : Expands ex f g [col.content]) :
    ∃ s, expandCol ex col = (pure s : ExpM Str) ∧ Written (cellParts f col) s := by
  obtain ⟨hc, wc, -⟩ := h col.content (by simp)
  refine ⟨_, by rw [expandCol, hc]; rfl, ?_⟩
  have hl := written_lines wc
  rw [cellParts]
  have ha := attributes_cell col.attributes
  cases col.isHeading with
  | true =>
    have := written_pad (w := []) (v := b!"\n") (by simp) (written_element (name := b!"th") ha hl) white_nl
    simpa using this
  | false =>
    have := written_element (name := b!"td") ha hl
    simpa using this

theorem expandRow_written {ex : Str → ExpM Str} {f : Str → List HtmlPart} {g : Str → Str} (row : List TableCol)
    (h : Expands ex f g (row.map TableCol.content)) :
    ∃ s, expandRow ex row = (pure s : ExpM Str) ∧ Written (element b!"tr" [] (row.flatMap (cellParts f))) s := by
  obtain ⟨ps, e, w⟩ := mapM_written (expandCol ex) (cellParts f) row (fun c hc => expandCol_written c (fun t ht => h t (by
    have : t = c.content := by simpa using ht
    rw [this]; exact List.mem_map_of_mem hc)))
  refine ⟨_, by rw [expandRow, e]; rfl, ?_⟩
  have := written_element (name := b!"tr") attributes_nil (written_lines w)
  simpa using this

theorem attributes_size (x y : Int) : Attributes (sizeAttributes x y) (b!" " ++ expandSizeTemplate x y) := by
  have one := fun a => attributes_one (b!"style=\"vertical-align: middle; width: " ++ a)
  by_cases hx : x = -1
  · by_cases hy : y = -1
    · simp only [sizeAttributes, expandSizeTemplate, hx, hy]
      exact attributes_white attributes_nil
    · have := one (b!"auto; height: " ++ decimalInt y ++ b!"px;\"")
      simpa [sizeAttributes, expandSizeTemplate, hx, hy, join] using this
  · by_cases hy : y = -1
    · have := one (decimalInt x ++ b!"px; height: auto;\"")
      simpa [sizeAttributes, expandSizeTemplate, hx, hy, join] using this
    · have := one (decimalInt x ++ b!"px; height: " ++ decimalInt y ++ b!"px;\"")
      simpa [sizeAttributes, expandSizeTemplate, hx, hy, join] using this

theorem lt_not_mem_decimal (n : Nat) : (0x3C : Byte) ∉ decimal n := by
  intro h
  have := decimal_digits n _ h
  exact absurd this (by decide)

/-- The presentation of pictures in an environment. -/
def picturesOf (env : HtmlEnv) : Pictures where
  file := imageSource env
  formula := fun c => match env.math c with
    | .ok (path, width, height, style) => (escapePathComponents path, width, height, style)
    | _ => ([], [], [], [])

theorem expandToken_written {env : HtmlEnv} {ex : Str → ExpM Str} {f : Str → List HtmlPart} {g : Str → Str} (token : Token)
    (hm : ∀ s, ∃ r, env.math s = .ok r) (hs : ∀ s, token ≠ .string s) (hn : ∀ s, token = .nowiki s → (0x3C : Byte) ∉ s)
    (h : Expands ex f g (tokenTexts token)) :
    ∃ html, expandToken env ex token = (pure html : ExpM Str) ∧ Written (tokenParts (picturesOf env) f token) html := by
  cases token with
  | heading content depth =>
    obtain ⟨hx, w, -⟩ := h content (by simp [tokenTexts])
    refine ⟨_, by rw [expandToken, hx]; rfl, ?_⟩
    have := written_element (name := b!"h" ++ decimal depth) attributes_nil w
    rw [tokenParts]
    simpa using this
  | internalLink name text =>
    obtain ⟨hx, w, -⟩ := h text (by simp [tokenTexts])
    exact ⟨g text, by rw [expandToken, hx], w⟩
  | externalLink url text =>
    obtain ⟨hx, w, -⟩ := h text (by simp [tokenTexts])
    refine ⟨_, by rw [expandToken, hx]; rfl, ?_⟩
    have := written_element (name := b!"a") (attributes_one (b!"href=\"" ++ url ++ b!"\"")) w
    rw [tokenParts]
    simpa using this
  | string s => exact absurd rfl (hs s)
  | nowiki s =>
    refine ⟨s, rfl, ?_⟩
    have := Written.text (hn s rfl) Written.nil
    simpa [tokenParts] using this
  | table rows caption =>
    obtain ⟨ps, e, w⟩ := mapM_written (expandRow ex) (fun row => element b!"tr" [] (row.flatMap (cellParts f))) rows
      (fun row hr => expandRow_written row (fun t ht => h t (by
        simp only [tokenTexts, List.mem_append, List.mem_flatMap]
        exact Or.inl ⟨row, hr, ht⟩)))
    obtain ⟨hc, wc, -⟩ := h caption (by simp [tokenTexts])
    refine ⟨_, by rw [expandToken, expandTable, e, ExpM.pure_bind, hc]; rfl, ?_⟩
    rw [tokenParts]
    have w1 := written_element (name := b!"table") attributes_nil (written_lines w)
    have w2 := written_element (name := b!"div") (attributes_one b!"class=\"caption\"") (written_lines wc)
    have w3 := written_append (written_append w1 (written_white white_nl)) w2
    rw [List.append_nil] at w3
    have := written_element (name := b!"div") (attributes_one b!"class=\"figure\"") (written_lines w3)
    simpa using this
  | list l =>
    obtain ⟨s, e, w⟩ := expandList_written l h
    exact ⟨s, by rw [expandToken, e], w⟩
  | image filename caption x y =>
    obtain ⟨hx, w, -⟩ := h caption (by simp [tokenTexts])
    refine ⟨_, by rw [expandToken, hx]; rfl, ?_⟩
    rw [tokenParts]
    have w2 := written_element (name := b!"div") (attributes_one b!"class=\"caption\"") (written_lines w)
    have w1 := Written.tag (name := b!"img") (attributes_space b!"alt=\"image\"" (attributes_space (b!"src=\"./" ++ imageSource env filename ++ b!"\"") (attributes_size x y)))
      (written_pad (w := b!"\n") (v := []) white_nl w2 (by simp))
    have := written_element (name := b!"div") (attributes_one b!"class=\"figure\"") (written_lines w1)
    simpa [picturesOf] using this
  | inlineImage filename x y =>
    refine ⟨_, rfl, ?_⟩
    rw [tokenParts]
    have := Written.tag (name := b!"img") (attributes_space b!"alt=\"image\"" (attributes_space b!"class=\"inline\"" (attributes_space (b!"src=\"./" ++ imageSource env filename ++ b!"\"") (attributes_size x y))))
      Written.nil
    simpa [picturesOf] using this
  | refDefinition index content =>
    obtain ⟨hx, w, -⟩ := h content (by simp [tokenTexts])
    refine ⟨_, by rw [expandToken, hx]; rfl, ?_⟩
    rw [tokenParts]
    have := Written.text (t := b!"[" ++ decimal (index + 1) ++ b!"] ") (by simp [lt_not_mem_decimal])
      (written_append w (Written.tag (name := b!"br") attributes_nil Written.nil))
    simpa using this
  | refUsage index =>
    refine ⟨_, rfl, ?_⟩
    have := Written.text (t := b!"[" ++ decimal (index + 1) ++ b!"]") (by simp [lt_not_mem_decimal]) Written.nil
    simpa [tokenParts] using this
  | math content =>
    obtain ⟨⟨a, b, c, d⟩, hr⟩ := hm content
    refine ⟨_, by rw [expandToken, hr], ?_⟩
    rw [tokenParts]
    have := Written.tag (name := b!"img") (attributes_space b!"alt=\"image\"" (attributes_space (b!"src=\"./" ++ escapePathComponents a ++ b!"\"")
      (attributes_one (b!"style=\"width: " ++ b ++ b!"; height: " ++ c ++ b!"; " ++ d ++ b!"\"")))) Written.nil
    simpa [picturesOf, hr] using this

theorem tokenParts_first {pictures : Pictures} {f : Str → List HtmlPart} (token : Token) (h : ∀ t ∈ tokenTexts token, FirstTag (f t)) :
    FirstTag (tokenParts pictures f token) := by
  cases token with
  | heading content depth => exact ⟨0x68, decimal depth, rfl, by decide⟩
  | internalLink name text => exact h text (by simp [tokenTexts])
  | externalLink url text => exact ⟨_, _, rfl, by decide⟩
  | string s => trivial
  | nowiki s => trivial
  | table rows caption => exact ⟨_, _, rfl, by decide⟩
  | list l => exact listParts_first f l
  | image filename caption x y => exact ⟨_, _, rfl, by decide⟩
  | inlineImage filename x y => exact ⟨_, _, rfl, by decide⟩
  | refDefinition index content => exact firstTag_append (h content (by simp [tokenTexts])) ⟨_, _, rfl, by decide⟩
  | refUsage index => trivial
  | math content => exact ⟨_, _, rfl, by decide⟩

mutual
theorem listParts_nested {f : Str → List HtmlPart} : ∀ (l : ListTok), (∀ t ∈ listTexts l, WellNested [] (f t)) → WellNested [] (listParts f l)
  | .mk kind items, h => by
    have := itemsParts_nested items (by simpa [listTexts] using h)
    cases kind <;> (rw [listParts]; exact wellNested_element (by decide) this)
theorem itemsParts_nested {f : Str → List HtmlPart} : ∀ (items : List ItemTok), (∀ t ∈ itemsTexts items, WellNested [] (f t)) → WellNested [] (itemsParts f items)
  | [], _ => by rw [itemsParts]; exact .nil
  | item :: rest, h => by
    rw [itemsTexts] at h
    rw [itemsParts]
    exact wellNested_append (itemParts_nested item fun t ht => h t (by simp [ht])) (itemsParts_nested rest fun t ht => h t (by simp [ht]))
theorem itemParts_nested {f : Str → List HtmlPart} : ∀ (item : ItemTok), (∀ t ∈ itemTexts item, WellNested [] (f t)) → WellNested [] (itemParts f item)
  | .mk type content subLists, h => by
    rw [itemTexts] at h
    have := wellNested_append (h content (by simp)) (subListsParts_nested subLists fun t ht => h t (by simp [ht]))
    cases type <;> (rw [itemParts]; exact wellNested_element (by decide) this)
theorem subListsParts_nested {f : Str → List HtmlPart} : ∀ (ls : List ListTok), (∀ t ∈ listsTexts ls, WellNested [] (f t)) → WellNested [] (subListsParts f ls)
  | [], _ => by rw [subListsParts]; exact .nil
  | l :: rest, h => by
    rw [listsTexts] at h
    rw [subListsParts]
    exact wellNested_append (listParts_nested l fun t ht => h t (by simp [ht])) (subListsParts_nested rest fun t ht => h t (by simp [ht]))
end

theorem heading_not_void (n : Nat) : b!"h" ++ decimal n ∉ voidNames := by
  intro h
  have : b!"h" ++ decimal n = b!"hr" := by
    simp only [voidNames, List.mem_cons, List.not_mem_nil, or_false] at h
    rcases h with h | h | h | h | h | h | h
    all_goals first | exact h | (injection h with h _; exact absurd h (by decide))
  have h2 : decimal n = b!"r" := by simpa using this
  have := decimal_digits n 0x72 (by rw [h2]; simp)
  exact absurd this (by decide)

theorem tokenParts_nested {pictures : Pictures} {f : Str → List HtmlPart} (token : Token) (h : ∀ t ∈ tokenTexts token, WellNested [] (f t)) :
    WellNested [] (tokenParts pictures f token) := by
  cases token with
  | heading content depth => exact wellNested_element (heading_not_void depth) (h content (by simp [tokenTexts]))
  | internalLink name text => exact h text (by simp [tokenTexts])
  | externalLink url text => exact wellNested_element (by decide) (h text (by simp [tokenTexts]))
  | string s => exact .text .nil
  | nowiki s => exact .text .nil
  | table rows caption =>
    refine wellNested_element (by decide) (wellNested_append (wellNested_element (by decide) (wellNested_flatMap fun row hr => ?_))
      (wellNested_element (by decide) (h caption (by simp [tokenTexts]))))
    refine wellNested_element (by decide) (wellNested_flatMap fun c hc => ?_)
    refine wellNested_element (by split <;> decide) (h c.content ?_)
    simp only [tokenTexts, List.mem_append, List.mem_flatMap]
    exact Or.inl ⟨row, hr, List.mem_map_of_mem hc⟩
  | list l => exact listParts_nested l h
  | image filename caption x y =>
    exact wellNested_element (by decide) (.void (by decide) (wellNested_element (by decide) (h caption (by simp [tokenTexts]))))
  | inlineImage filename x y => exact .void (by decide) .nil
  | refDefinition index content => exact .text (wellNested_append (h content (by simp [tokenTexts])) (.void (by decide) .nil))
  | refUsage index => exact .text .nil
  | math content => exact .void (by decide) .nil

/-! ### Texts with tokens -/

theorem shows_pieces {pictures : Pictures} {tokens : List (Str × Token)} {stack : List Str} {content : Str} {es : List HtmlPart}
    (h : Describes pictures tokens stack content es) :
    ∃ ps last, content = piecesText ps last ∧ (∀ p ∈ ps, p.WellFormed) ∧ ¬ b!"$$" <:+: last := by
  induction h with
  | last h hl => exact ⟨[], _, by simp [piecesText], by simp, h⟩
  | @marker text content ts es before after m h hl hs hr ih =>
    obtain ⟨ps, last, rfl, hp, hd⟩ := ih
    refine ⟨⟨text, .marker m⟩ :: ps, last, by rw [piecesText_cons]; rfl, ?_, hd⟩
    intro p hpm
    rcases List.mem_cons.mp hpm with rfl | hpm
    · exact ⟨h, trivial⟩
    · exact hp p hpm
  | @token text content type n token ts es stack h hl ht hk hs hn f hi hr ih1 ih =>
    obtain ⟨ps, last, rfl, hp, hd⟩ := ih
    refine ⟨⟨text, .token type n⟩ :: ps, last, by rw [piecesText_cons]; rfl, ?_, hd⟩
    intro p hpm
    rcases List.mem_cons.mp hpm with rfl | hpm
    · exact ⟨h, ht⟩
    · exact hp p hpm

theorem marker_html_written (m : Marker) : Written m.parts m.html := by
  cases m with
  | boldOpen => exact .tag (name := b!"b") attributes_nil .nil
  | boldClose => exact .close (name := b!"b") .nil
  | italicOpen => exact .tag (name := b!"i") attributes_nil .nil
  | italicClose => exact .close (name := b!"i") .nil
  | paragraph => exact .tag (name := b!"br") attributes_nil (.tag (name := b!"br") attributes_nil .nil)

theorem marker_first (m : Marker) : FirstTag m.parts := by
  cases m <;> first | trivial | exact ⟨_, _, rfl, by decide⟩

theorem marker_nested {m : Marker} {before after : List Str} {es : List HtmlPart} (hs : m.Step before after) (h : WellNested after es) :
    WellNested before (m.parts ++ es) := by
  cases hs with
  | boldOpen => exact .opening (by decide) h
  | boldClose => exact .closing h
  | italicOpen => exact .opening (by decide) h
  | italicClose => exact .closing h
  | paragraph => exact .void (by decide) (.void (by decide) h)

theorem shows_first {pictures : Pictures} {tokens : List (Str × Token)} {stack : List Str} {content : Str} {es : List HtmlPart}
    (h : Describes pictures tokens stack content es) : FirstTag es := by
  induction h with
  | last h hl => exact firstTag_of_names hl.names
  | marker m h hl hs hr ih => exact firstTag_append (firstTag_append (firstTag_of_names hl.names) (marker_first m)) ih
  | token h hl ht hk hs hn f hi hr ih1 ih =>
    exact firstTag_append (firstTag_append (firstTag_of_names hl.names) (tokenParts_first _ ih1)) ih

theorem shows_nested {pictures : Pictures} {tokens : List (Str × Token)} {stack : List Str} {content : Str} {es : List HtmlPart}
    (h : Describes pictures tokens stack content es) : WellNested stack es := by
  induction h with
  | last h hl => exact hl.nested
  | marker m h hl hs hr ih =>
    rw [List.append_assoc]
    exact wellNested_append hl.nested (marker_nested hs ih)
  | token h hl ht hk hs hn f hi hr ih1 ih =>
    exact wellNested_append (wellNested_append hl.nested (tokenParts_nested _ ih1)) ih

theorem shows_written {env : HtmlEnv} {tokens : List (Str × Token)} {stack : List Str} {content : Str} {es : List HtmlPart}
    (hm : ∀ s, ∃ r, env.math s = .ok r) (h : Describes (picturesOf env) tokens stack content es) :
    ∃ N, ∀ fuel, N ≤ fuel → ∃ html, expandString env tokens fuel content = (pure html : ExpM Str) ∧ Written es html := by
  induction h with
  | @last text es h hl =>
    refine ⟨1, fun fuel hf => ?_⟩
    obtain ⟨f, rfl⟩ : ∃ f, fuel = f + 1 := ⟨fuel - 1, by omega⟩
    refine ⟨text, ?_, hl.written⟩
    have := expandString_pieces env tokens f [] text (by simp) h
    simpa [piecesText, expandPieces] using this
  | @marker text content ts es before after m h hl hs hr ih =>
    obtain ⟨N, ih⟩ := ih
    refine ⟨N + 1, fun fuel hf => ?_⟩
    obtain ⟨f, rfl⟩ : ∃ f, fuel = f + 1 := ⟨fuel - 1, by omega⟩
    obtain ⟨c, hc, w⟩ := ih (f + 1) (by omega)
    refine ⟨text ++ m.html ++ c, ?_, written_append (written_append hl.written (marker_html_written m)) w⟩
    have := expandString_cons env tokens f text content (.marker m) (shows_pieces hr) h trivial
    rw [hc] at this
    exact this
  | @token text content type n token ts es stack h hl ht hk hs hn f hi hr ih1 ih =>
    obtain ⟨N, ih⟩ := ih
    obtain ⟨N1, h1⟩ : ∃ N1, ∀ fuel, N1 ≤ fuel → ∀ t ∈ tokenTexts token,
        ∃ html, expandString env tokens fuel t = (pure html : ExpM Str) ∧ Written (f t) html := by
      generalize tokenTexts token = texts at ih1
      induction texts with
      | nil => exact ⟨0, fun _ _ t ht => absurd ht (by simp)⟩
      | cons a texts iht =>
        obtain ⟨Na, ha⟩ := ih1 a (by simp)
        obtain ⟨Nb, hb⟩ := iht (fun t ht => ih1 t (by simp [ht]))
        refine ⟨max Na Nb, fun fuel hf t ht => ?_⟩
        rcases List.mem_cons.mp ht with rfl | ht
        · exact ha fuel (by omega)
        · exact hb fuel (by omega) t ht
    refine ⟨N + N1 + 1, fun fuel hf => ?_⟩
    obtain ⟨k, rfl⟩ : ∃ k, fuel = k + 1 := ⟨fuel - 1, by omega⟩
    obtain ⟨c, hc, w⟩ := ih (k + 1) (by omega)
    have h1 := h1 k (by omega)
    have hE : Expands (expandString env tokens k) f (fun t => match expandString env tokens k t with | some (.ok x) => x | _ => [])
        (tokenTexts token) := by
      intro t ht
      obtain ⟨x, hx, wx⟩ := h1 t ht
      have hx' : expandString env tokens k t = some (.ok x) := hx
      simp only [hx']
      exact ⟨rfl, wx, shows_first (hi t ht)⟩
    obtain ⟨x, hx, wx⟩ := expandToken_written (env := env) token hm hs hn hE
    refine ⟨text ++ x ++ c, ?_, written_append (written_append hl.written wx) w⟩
    have := expandString_cons env tokens k text content (.token type n) (shows_pieces hr) h ht
    simp only [expandElement, hk] at this
    rw [hx, hc] at this
    exact this

end Verif.Model
