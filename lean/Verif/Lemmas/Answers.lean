import Verif.Lemmas.JsonRead
import Verif.Model.Answers

/-!
# The answers of the wiki are read
-/

namespace Verif.Lemmas
open Verif.Go Verif.Spec Verif.Model

/-! ## Fields -/

theorem foldName_ascii {s : Str} (h : ∀ c ∈ s, c < 0x80) :
    foldName s = s.map fun c => if 0x61 ≤ c ∧ c ≤ 0x7A then c - 0x20 else c := by
  induction s with
  | nil => rfl
  | cons c t ih =>
    have hc := h c (by simp)
    rw [foldName.eq_def]
    split
    · rename_i heq; cases heq
    · rename_i heq; injection heq with e1 e2; subst e1; exact absurd hc (by decide)
    · rename_i heq; injection heq with e1 e2; subst e1; exact absurd hc (by decide)
    · rename_i heq
      injection heq with e1 e2
      subst e1; subst e2
      rw [ih (fun d hd => h d (by simp [hd])), List.map_cons]

theorem smallLetters_fold {s : Str} (h : ∀ c ∈ s, c < 0x80) : smallLetters (foldName s) = smallLetters s := by
  rw [foldName_ascii h]
  unfold smallLetters
  rw [List.map_map]
  apply List.map_congr_left
  intro c hm
  show (fun c : Byte => (if 0x41 ≤ (if 0x61 ≤ c ∧ c ≤ 0x7A then c - 0x20 else c) ∧ (if 0x61 ≤ c ∧ c ≤ 0x7A then c - 0x20 else c) ≤ 0x5A
    then (if 0x61 ≤ c ∧ c ≤ 0x7A then c - 0x20 else c) + 0x20 else (if 0x61 ≤ c ∧ c ≤ 0x7A then c - 0x20 else c)) =
      if 0x41 ≤ c ∧ c ≤ 0x5A then c + 0x20 else c) c
  clear hm
  revert c
  apply byte_forall
  decide +kernel

theorem structField_other {names : List Str} {key : Str} (hn : ∀ n ∈ names, ∀ c ∈ n, c < 0x80)
    (h : ∀ n ∈ names, OtherName n key) : structField names key = none := by
  unfold structField
  rw [if_neg, List.find?_eq_none]
  · intro n hm
    rw [decide_eq_true_eq]
    intro he
    apply (h n hm).2
    rw [← smallLetters_fold (h n hm).1, ← smallLetters_fold (hn n hm), he]
  · intro hm
    exact (h key hm).2 rfl

/-- `storeMembers` on a list of members. -/
def storeList {α : Type} (names : List Str) (store : Str → JsonVal → α → α × Bool) : List (Str × JsonVal) → α → α × Bool
  | [], x => (x, false)
  | m :: rest, x =>
    match structField names m.1 with
    | none => storeList names store rest x
    | some name =>
      ((storeList names store rest (store name m.2 x).1).1, (store name m.2 x).2 || (storeList names store rest (store name m.2 x).1).2)

theorem storeMembers_list {α : Type} (names : List Str) (store : Str → JsonVal → α → α × Bool) (fields : JsonMembers) (x : α) :
    storeMembers names store fields x = storeList names store (memberList fields) x :=
  match fields with
  | .nil => rfl
  | .cons key value rest => by
    rw [storeMembers, memberList, storeList]
    split
    · rename_i h
      simp only [h]
      exact storeMembers_list names store rest x
    · rename_i n h
      simp only [h]
      rw [storeMembers_list names store rest]

theorem storeList_append {α : Type} {names : List Str} {store : Str → JsonVal → α → α × Bool} {l r : List (Str × JsonVal)} {x y : α}
    (h : storeList names store l x = (y, false)) : storeList names store (l ++ r) x = storeList names store r y := by
  induction l generalizing x with
  | nil => cases h; rfl
  | cons m l ih =>
    rw [List.cons_append, storeList]
    rw [storeList] at h
    cases hs : structField names m.1 with
    | none => rw [hs] at h; exact ih h
    | some n =>
      rw [hs] at h
      simp only at h ⊢
      have h1 := congrArg Prod.fst h
      have h2 := congrArg Prod.snd h
      simp only [Bool.or_eq_false_iff] at h1 h2
      have := ih (x := (store n m.2 x).1) (Prod.ext h1 h2.2)
      rw [this, h2.1, Bool.false_or]

theorem storeList_other {α : Type} {names : List Str} {store : Str → JsonVal → α → α × Bool} {l : List (Str × JsonVal)} (x : α)
    (hn : ∀ n ∈ names, ∀ c ∈ n, c < 0x80) (h : ∀ m ∈ l, ∀ n ∈ names, OtherName n m.1) : storeList names store l x = (x, false) := by
  induction l with
  | nil => rfl
  | cons m l ih =>
    rw [storeList, structField_other hn (h m (by simp))]
    exact ih (fun m hm => h m (by simp [hm]))

theorem storeList_name {α : Type} {names : List Str} {store : Str → JsonVal → α → α × Bool} {name : Str} (hm : name ∈ names)
    (v : JsonVal) (l : List (Str × JsonVal)) {x y : α} (h : store name v x = (y, false)) :
    storeList names store ((name, v) :: l) x = storeList names store l y := by
  rw [storeList]
  have : structField names name = some name := by unfold structField; rw [if_pos hm]
  simp only [this, h, Bool.false_or]

/-- A struct with one field. -/
theorem storeStruct_one {α : Type} {store : Str → JsonVal → α → α × Bool} {name : Str} (hn : ∀ c ∈ name, c < 0x80)
    {fields : JsonMembers} {v : JsonVal} (h : OneMember fields name v) {x y : α} (hs : store name v x = (y, false)) :
    storeStruct [name] store (.obj fields) x = (y, false) := by
  obtain ⟨before, after, e, ho⟩ := h
  show storeMembers [name] store fields x = _
  rw [storeMembers_list, e]
  have hn' : ∀ n ∈ [name], ∀ c ∈ n, c < 0x80 := by simpa using hn
  rw [storeList_append (storeList_other x hn' (l := before) (fun m hm n hn => by
    rw [List.mem_singleton] at hn; subst hn; exact ho m (by simp [hm]))),
    storeList_name (by simp) v _ hs]
  exact storeList_other y hn' (fun m hm n hn => by
    rw [List.mem_singleton] at hn; subst hn; exact ho m (by simp [hm]))

/-- The two fields of an article. -/
theorem storeParse {fields : JsonMembers} {title : Str} {wikitext : JsonVal} (ht : OneMember fields b!"title" (.str title))
    (hw : OneMember fields b!"wikitext" wikitext) (ho : ∀ m ∈ memberList fields, OtherName b!"OriginalTitle" m.1) (x : ArticleJson)
    {content : Str} (hc : ∀ y : ArticleJson, storeWikitext wikitext y = ({ y with content := content }, false)) :
    storeStruct [b!"title", b!"wikitext", b!"OriginalTitle"] storeParseField (.obj fields) x =
      ({ x with title := title, content := content }, false) := by
  have hn : ∀ n ∈ [b!"title", b!"wikitext", b!"OriginalTitle"], ∀ c ∈ n, c < 0x80 := by decide
  obtain ⟨b1, a1, e1, h1⟩ := ht
  obtain ⟨b2, a2, e2, h2⟩ := hw
  have s1 : ∀ y : ArticleJson, storeParseField b!"title" (.str title) y = ({ y with title := title }, false) := fun y => rfl
  have s2 : ∀ y : ArticleJson, storeParseField b!"wikitext" wikitext y = ({ y with content := content }, false) := by
    intro y
    unfold storeParseField
    rw [if_neg (by decide), if_pos rfl, hc]
  have other : ∀ l : List (Str × JsonVal), (∀ m ∈ l, m ∈ memberList fields ∧ OtherName b!"title" m.1 ∧ OtherName b!"wikitext" m.1) →
      ∀ y : ArticleJson, storeList [b!"title", b!"wikitext", b!"OriginalTitle"] storeParseField l y = (y, false) := by
    intro l hl y
    refine storeList_other y hn (fun m hm n hn => ?_)
    simp only [List.mem_cons, List.not_mem_nil, or_false] at hn
    rcases hn with rfl | rfl | rfl
    · exact (hl m hm).2.1
    · exact (hl m hm).2.2
    · exact ho m (hl m hm).1
  show storeMembers _ _ fields x = _
  rw [storeMembers_list]
  have hne : (b!"title", JsonVal.str title) ≠ (b!"wikitext", wikitext) := by
    intro h
    have h1 : b!"title" = b!"wikitext" := congrArg Prod.fst h
    revert h1
    decide
  rw [e1] at e2
  rcases List.append_eq_append_iff.mp e2 with ⟨mid, hb, ha⟩ | ⟨mid, hb, ha⟩
  · -- the title comes first
    cases mid with
    | nil => rw [List.nil_append] at ha; injection ha with hx _; exact absurd hx hne
    | cons m mid =>
      rw [List.cons_append] at ha
      injection ha with hx ha
      subst hx
      subst ha
      rw [e1]
      have m1 : ∀ m ∈ b1, m ∈ memberList fields ∧ OtherName b!"title" m.1 ∧ OtherName b!"wikitext" m.1 := fun m hm =>
        ⟨by rw [e1]; simp [hm], h1 m (by simp [hm]), h2 m (by rw [hb]; simp [hm])⟩
      have m2 : ∀ m ∈ mid, m ∈ memberList fields ∧ OtherName b!"title" m.1 ∧ OtherName b!"wikitext" m.1 := fun m hm =>
        ⟨by rw [e1]; simp [hm], h1 m (by simp [hm]), h2 m (by rw [hb]; simp [hm])⟩
      have m3 : ∀ m ∈ a2, m ∈ memberList fields ∧ OtherName b!"title" m.1 ∧ OtherName b!"wikitext" m.1 := fun m hm =>
        ⟨by rw [e1]; simp [hm], h1 m (by simp [hm]), h2 m (by simp [hm])⟩
      rw [storeList_append (other b1 m1 x), storeList_name (by decide) _ _ (s1 x), storeList_append (other mid m2 _),
        storeList_name (by decide) _ _ (s2 _), other a2 m3]
  · -- the text comes first
    cases mid with
    | nil => rw [List.nil_append] at ha; injection ha with hx _; exact absurd hx.symm hne
    | cons m mid =>
      rw [List.cons_append] at ha
      injection ha with hx ha
      subst hx
      subst ha
      rw [e1, hb, List.append_assoc, List.cons_append]
      have m1 : ∀ m ∈ b2, m ∈ memberList fields ∧ OtherName b!"title" m.1 ∧ OtherName b!"wikitext" m.1 := fun m hm =>
        ⟨by rw [e1, hb]; simp [hm], h1 m (by rw [hb]; simp [hm]), h2 m (by simp [hm])⟩
      have m2 : ∀ m ∈ mid, m ∈ memberList fields ∧ OtherName b!"title" m.1 ∧ OtherName b!"wikitext" m.1 := fun m hm =>
        ⟨by rw [e1, hb]; simp [hm], h1 m (by rw [hb]; simp [hm]), h2 m (by simp [hm])⟩
      have m3 : ∀ m ∈ a1, m ∈ memberList fields ∧ OtherName b!"title" m.1 ∧ OtherName b!"wikitext" m.1 := fun m hm =>
        ⟨by rw [e1]; simp [hm], h1 m (by simp [hm]), h2 m (by simp [hm])⟩
      rw [storeList_append (other b2 m1 x), storeList_name (by decide) _ _ (s2 x), storeList_append (other mid m2 _),
        storeList_name (by decide) _ _ (s1 _), other a1 m3]

theorem storeWikitext_one {fields : JsonMembers} {text : Str} (h : OneMember fields b!"*" (.str text)) (x : ArticleJson) :
    storeWikitext (.obj fields) x = ({ x with content := text }, false) :=
  storeStruct_one (by decide) h rfl

/-- The article of an answer. -/
theorem storeArticle_answer {title text : Str} {v : JsonVal} (h : ArticleAnswer title text v) (x : ArticleJson) :
    storeArticle v x = ({ x with title := title, content := text }, false) := by
  obtain ⟨top, parse, wikitext, rfl, h1, h2, h3, h4, h5⟩ := h
  exact storeStruct_one (by decide) h1 (storeParse h2 h3 h5 x (storeWikitext_one h4))

end Verif.Lemmas
