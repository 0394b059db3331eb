import Verif.Model.CleanTemplates
import Verif.Spec.Templates
import Verif.Lemmas.Cut
import Verif.Lemmas.Space
import Verif.Lemmas.CloseToken

/-! # Ignored and trailing templates -/

namespace Verif.Lemmas
open Verif.Go Verif.Model Verif.Spec TemplateText
open scoped List

/-! ## Closing tokens -/

theorem tclose_open (t : Str) (i k : Nat) :
    closeLoop false b!"{{" b!"}}" (0x7B :: 0x7B :: t) 0 i k = closeLoop false b!"{{" b!"}}" t 0 (i + 2) (k + 1) := by
  rw [closeLoop, if_pos]
  · rfl
  · simp [sameToken, cursorText]

theorem tclose_close (t : Str) (i k : Nat) :
    closeLoop false b!"{{" b!"}}" (0x7D :: 0x7D :: t) 0 i k =
      if k = 0 then some i else closeLoop false b!"{{" b!"}}" t 0 (i + 2) (k - 1) := by
  rw [closeLoop, if_neg, if_pos]
  · rfl
  · simp [sameToken, cursorText]
  · simp [sameToken, cursorText]

theorem tclose_other (t : Str) (i k : Nat) {c : Byte} (h1 : ¬ b!"{{" <+: c :: t) (h2 : ¬ b!"}}" <+: c :: t) :
    closeLoop false b!"{{" b!"}}" (c :: t) 0 i k = closeLoop false b!"{{" b!"}}" t 0 (i + 1) k := by
  have key : ∀ tok : Str, tok.length = 2 → ¬ tok <+: c :: t → ¬ sameToken false (cursorText (c :: t) tok.length) tok = true := by
    intro tok hl hn h
    simp only [sameToken, Bool.false_eq_true, if_false, beq_iff_eq, cursorText] at h
    split at h
    · exact hn (by rw [← h]; exact List.take_prefix _ _)
    · rw [← h] at hl; cases hl
  rw [closeLoop, if_neg, if_neg]
  · exact key _ rfl h2
  · exact fun h => key _ rfl h1 h.2

theorem tclose_name (name : Str) (h : ∀ c ∈ name, c ≠ 0x7B ∧ c ≠ 0x7D) (t : Str) (i k : Nat) :
    closeLoop false b!"{{" b!"}}" (name ++ t) 0 i k = closeLoop false b!"{{" b!"}}" t 0 (i + name.length) k := by
  induction name generalizing i with
  | nil => rfl
  | cons c n ih =>
    rw [List.cons_append, tclose_other, ih (fun x hx => h x (by simp [hx]))]
    · simp only [List.length_cons]; congr 1; omega
    · rw [List.cons_prefix_cons]; exact fun h' => (h c (by simp)).1 h'.1.symm
    · rw [List.cons_prefix_cons]; exact fun h' => (h c (by simp)).2 h'.1.symm

theorem tclose_text (d : TemplateText) : ∀ (after : Str), d.WellFormed after → ∀ (i k : Nat),
    closeLoop false b!"{{" b!"}}" (d.text ++ after) 0 i k = closeLoop false b!"{{" b!"}}" after 0 (i + d.text.length) k := by
  induction d with
  | nil => intro after _ i k; simp [text]
  | char c rest ih =>
    intro after h i k
    simp only [text, List.cons_append, List.length_cons]
    rw [tclose_other _ _ _ h.1 h.2.1, ih _ h.2.2]
    congr 1; omega
  | template lead name args rest ih1 ih2 =>
    intro after ⟨h1, h2, h3, h4, h5, h6⟩ i k
    have e : (template lead name args rest).text ++ after =
        0x7B :: 0x7B :: ((lead ++ name) ++ (args.text ++ (0x7D :: 0x7D :: (rest.text ++ after)))) := by simp [text]
    have e2 : args.WellFormed (0x7D :: 0x7D :: (rest.text ++ after)) := by simpa using h5
    rw [e, tclose_open, tclose_name, ih1 _ e2, tclose_close, if_neg (by omega), ih2 _ h6]
    · simp only [text, List.length_append, List.length_cons, List.length_nil]
      congr 1; omega
    · intro c hc
      rw [List.mem_append] at hc
      rcases hc with hc | hc
      · have := h1 c hc
        constructor <;> rintro rfl <;> revert this <;> decide
      · have := h3 c hc
        constructor <;> rintro rfl <;> revert this <;> decide

/-! ## Names -/

theorem matchName_of (lead name t : Str) (h1 : ∀ c ∈ lead, isLead c = true)
    (h2 : ∃ c t, name = c :: t ∧ isLead c = false) (h3 : ∀ c ∈ name, c ∉ b!"{}|\n") (h4 : EndsName t) :
    matchName (lead ++ name ++ t) = some name := by
  have hsp : ∀ c, isLead c = regexSpace c := by
    intro c; simp only [isLead, regexSpace]; rw [Bool.eq_iff_iff]; simp [or_assoc]
  have hd : (lead ++ name ++ t).dropWhile regexSpace = name ++ t := by
    rw [List.append_assoc, List.dropWhile_append_of_pos (fun c hc => by rw [← hsp]; exact h1 c hc)]
    obtain ⟨c, n, rfl, hc⟩ := h2
    rw [List.cons_append, List.dropWhile_cons_of_neg (by rw [← hsp, hc]; simp)]
  have ht : (name ++ t).takeWhile (fun c => !nameStop c) = name := by
    obtain ⟨c, t', rfl, hc⟩ := h4
    rw [List.takeWhile_append_of_pos]
    · rw [List.takeWhile_cons_of_neg]
      · simp
      · simp only [List.mem_cons, List.not_mem_nil, or_false] at hc
        rcases hc with rfl | rfl | rfl <;> decide
    · intro x hx
      have := h3 x hx
      simp only [nameStop]
      simp only [List.mem_cons, List.not_mem_nil, or_false, not_or] at this
      simp [this.2.1, this.2.2.1, this.2.2.2]
  unfold matchName
  simp only [hd, ht]
  obtain ⟨c, n, rfl, -⟩ := h2
  simp

theorem findTemplateName_of (lead name t : Str) (h1 : ∀ c ∈ lead, isLead c = true)
    (h2 : ∃ c t, name = c :: t ∧ isLead c = false) (h3 : ∀ c ∈ name, c ∉ b!"{}|\n") (h4 : EndsName t) :
    findTemplateName (b!"{{" ++ lead ++ name ++ t) = some name := by
  show findTemplateName (0x7B :: 0x7B :: (lead ++ name ++ t)) = _
  rw [findTemplateName, if_pos (by simp [hasPrefix])]
  simp only [List.drop_succ_cons, List.drop_zero]
  rw [matchName_of lead name t h1 h2 h3 h4]

/-! ## The loop -/

/-- What happens at the beginning of this text: the length of the template and its name, if it is to be removed. -/
def removableAt (env : ParserEnv) (s : Str) : Option (Nat × Str) :=
  if hasPrefix s b!"{{" then
    (findClose s 2 b!"{{" b!"}}").bind fun e =>
      (templateName env (s.take (e + 2))).bind fun n => if removesTemplate env n then some (e + 2, n) else none
  else none

theorem closeLoop_shift (ic : Bool) (o c s : Str) (skip i j k : Nat) :
    closeLoop ic o c s skip (i + j) k = (closeLoop ic o c s skip i k).map (· + j) := by
  induction s generalizing skip i k with
  | nil => rfl
  | cons x t ih =>
    cases skip with
    | succ skip => simp only [closeLoop]; rw [show i + j + 1 = i + 1 + j by omega]; exact ih _ _ _
    | zero =>
      simp only [closeLoop]
      rw [show i + j + 1 = i + 1 + j by omega]
      split
      · exact ih _ _ _
      · split
        · split
          · rfl
          · exact ih _ _ _
        · exact ih _ _ _

theorem findClose_shift (o c s : Str) (i : Nat) :
    findClose s (i + 2) o c = (findClose (s.drop i) 2 o c).map (· + i) := by
  unfold findClose findCloseWith
  rw [List.drop_drop, ← closeLoop_shift]
  congr 1; omega

/-- One round of the loop. -/
theorem templateLoop_step (env : ParserEnv) (fuel : Nat) (content : Str) (i : Nat) (found : List Str)
    (h : i + 1 < content.length) :
    templateLoop env (fuel + 1) content i found =
      match removableAt env (content.drop i) with
      | none => templateLoop env fuel content (i + 1) found
      | some (n, name) =>
        templateLoop env fuel (replaceFirst ((content.drop i).take n) [] content) i
          (if name ∈ (env.config.list .trailingTemplates).map env.lower then found ++ [name] else found) := by
  rw [templateLoop, if_pos h, removableAt]
  split
  · rw [findClose_shift]
    cases hc : findClose (content.drop i) 2 b!"{{" b!"}}" with
    | none => rfl
    | some e =>
      simp only [Option.map_some, Option.bind_some]
      have ht : (content.take (e + i + 2)).drop i = (content.drop i).take (e + 2) := by
        rw [show e + i + 2 = i + (e + 2) by omega, List.take_add, List.drop_append_of_le_length (by simp; omega)]
        simp
      rw [ht]
      cases hn : templateName env ((content.drop i).take (e + 2)) with
      | none => rfl
      | some n =>
        simp only [Option.bind_some]
        by_cases hr : removesTemplate env n = true
        · simp only [hr, if_true]
        · simp only [hr]; rfl
  · rfl

theorem replaceFirst_append {old : Str} (p x : Str) (h0 : old ≠ [])
    (h : ∀ j < p.length, ¬ old <+: (p ++ old ++ x).drop j) : replaceFirst old [] (p ++ old ++ x) = p ++ x := by
  induction p with
  | nil =>
    cases old with
    | nil => exact absurd rfl h0
    | cons c t =>
      simp [replaceFirst]
  | cons c p ih =>
    have h1 : ¬ old <+: c :: (p ++ old ++ x) := by simpa using h 0 (by simp)
    have h2 := ih fun j hj => by simpa using h (j + 1) (by simp; omega)
    show replaceFirst old [] (c :: (p ++ old ++ x)) = _
    rw [replaceFirst, if_neg (by rw [List.isPrefixOf_iff_prefix]; exact h1), h2]
    rfl

theorem replaceFirst_length {old s : Str} (h : old <:+: s) (h0 : old ≠ []) :
    (replaceFirst old [] s).length + old.length = s.length := by
  induction s with
  | nil => exact absurd (List.infix_nil.mp h) h0
  | cons c t ih =>
    rw [replaceFirst]
    split
    · next hp =>
      rw [List.isPrefixOf_iff_prefix] at hp
      have := hp.length_le
      simp at this ⊢
      omega
    · next hp =>
      rw [List.isPrefixOf_iff_prefix] at hp
      rcases List.infix_cons_iff.mp h with h | h
      · exact absurd h hp
      · have := ih h
        simp; omega

/-- The bound for the number of iterations does not matter: every iteration either goes on or shortens the text. -/
theorem templateLoop_fuel (env : ParserEnv) (f k : Nat) (content : Str) (i : Nat) (found : List Str)
    (h : content.length - i ≤ f) : templateLoop env (f + k) content i found = templateLoop env f content i found := by
  induction f generalizing content i found with
  | zero =>
    cases k with
    | zero => rfl
    | succ k => rw [Nat.zero_add, templateLoop, templateLoop, if_neg (by omega)]
  | succ f ih =>
    by_cases hi : i + 1 < content.length
    · rw [show f + 1 + k = f + k + 1 by omega, templateLoop_step _ _ _ _ _ hi, templateLoop_step _ _ _ _ _ hi]
      cases hr : removableAt env (content.drop i) with
      | none => exact ih _ _ _ (by omega)
      | some x =>
        obtain ⟨n, name⟩ := x
        refine ih _ _ _ ?_
        have hn : 2 ≤ n := by
          unfold removableAt at hr
          split at hr
          · cases hc : findClose (content.drop i) 2 b!"{{" b!"}}" with
            | none => rw [hc] at hr; cases hr
            | some e =>
              rw [hc, Option.bind_some] at hr
              cases hn : templateName env ((content.drop i).take (e + 2)) with
              | none => rw [hn] at hr; cases hr
              | some m =>
                rw [hn, Option.bind_some] at hr
                split at hr
                · simp only [Option.some.injEq, Prod.mk.injEq] at hr; omega
                · cases hr
          · cases hr
        have hl : ((content.drop i).take n).length ≥ 2 := by simp; omega
        have := replaceFirst_length (old := (content.drop i).take n) (s := content)
          ((List.take_prefix _ _).isInfix.trans (List.drop_suffix _ _).isInfix) (by intro h; rw [h] at hl; simp at hl)
        omega
    · rw [show f + 1 + k = f + k + 1 by omega, templateLoop, if_neg hi, templateLoop, if_neg hi]

/-- From one state of the loop to another one. -/
def Reach (env : ParserEnv) (content : Str) (i : Nat) (found : List Str) (content' : Str) (i' : Nat) (found' : List Str) : Prop :=
  ∃ k, ∀ fuel, templateLoop env (fuel + k) content i found = templateLoop env fuel content' i' found'

theorem Reach.refl {env : ParserEnv} {c : Str} {i : Nat} {f : List Str} : Reach env c i f c i f := ⟨0, fun _ => rfl⟩

theorem Reach.trans {env : ParserEnv} {c1 c2 c3 : Str} {i1 i2 i3 : Nat} {f1 f2 f3 : List Str}
    (h1 : Reach env c1 i1 f1 c2 i2 f2) (h2 : Reach env c2 i2 f2 c3 i3 f3) : Reach env c1 i1 f1 c3 i3 f3 := by
  obtain ⟨k1, h1⟩ := h1
  obtain ⟨k2, h2⟩ := h2
  exact ⟨k2 + k1, fun fuel => by rw [← Nat.add_assoc, h1, h2]⟩

theorem reach_char {env : ParserEnv} {c : Str} {i : Nat} {f : List Str} (h : removableAt env (c.drop i) = none) :
    Reach env c i f c (i + 1) f := by
  refine ⟨1, fun fuel => ?_⟩
  by_cases hi : i + 1 < c.length
  · rw [templateLoop_step _ _ _ _ _ hi, h]
  · rw [templateLoop, if_neg hi]
    cases fuel with
    | zero => rfl
    | succ fuel => rw [templateLoop, if_neg (by omega)]

/-! ## The part of the text that has been handled -/

/-- What has been handled consists of characters and openings of templates that are kept. -/
inductive Seg where
  | ch (c : Byte)
  | op (lead name : Str)

def segText : List Seg → Str
  | [] => []
  | .ch c :: s => c :: segText s
  | .op lead name :: s => b!"{{" ++ lead ++ name ++ segText s

theorem segText_append (a b : List Seg) : segText (a ++ b) = segText a ++ segText b := by
  induction a with
  | nil => rfl
  | cons x a ih => cases x <;> simp [segText, ih]

/-- A name as it is allowed in well-formed texts. -/
structure GoodName (lead name : Str) : Prop where
  lead : ∀ c ∈ lead, isLead c = true
  head : ∃ c t, name = c :: t ∧ isLead c = false
  chars : ∀ c ∈ name, c ∉ b!"{}|\n"

theorem GoodName.noBrace {lead name : Str} (h : GoodName lead name) : ∀ c ∈ lead ++ name, c ≠ 0x7B ∧ c ≠ 0x7D := by
  intro c hc
  rw [List.mem_append] at hc
  rcases hc with hc | hc
  · have := h.lead c hc
    constructor <;> rintro rfl <;> revert this <;> decide
  · have := h.chars c hc
    constructor <;> rintro rfl <;> revert this <;> decide

/-- The normal form of a name. -/
def normName (env : ParserEnv) (name : Str) : Str := trimSpace (env.lower name)

def Kept (env : ParserEnv) : List Seg → Str → Prop
  | [], _ => True
  | .ch c :: s, r => ¬ b!"{{" <+: c :: (segText s ++ r) ∧ Kept env s r
  | .op lead name :: s, r =>
    GoodName lead name ∧ removesTemplate env (normName env name) = false ∧ EndsName (segText s ++ r) ∧ Kept env s r

theorem kept_append {env : ParserEnv} {a b : List Seg} {r : Str} (h1 : Kept env a (segText b ++ r)) (h2 : Kept env b r) :
    Kept env (a ++ b) r := by
  induction a with
  | nil => exact h2
  | cons x a ih =>
    cases x with
    | ch c =>
      refine ⟨?_, ih h1.2⟩
      rw [show segText (a.append b) = segText a ++ segText b from segText_append a b, List.append_assoc]
      exact h1.1
    | op lead name =>
      refine ⟨h1.1, h1.2.1, ?_, ih h1.2.2.2⟩
      rw [show segText (a.append b) = segText a ++ segText b from segText_append a b, List.append_assoc]
      exact h1.2.2.1

/-- If the rest begins with a template, it can be replaced by any text. -/
theorem kept_replace {env : ParserEnv} {s : List Seg} {t : Str} (r : Str) (h : Kept env s (b!"{{" ++ t)) : Kept env s r := by
  induction s with
  | nil => trivial
  | cons x s ih =>
    cases x with
    | ch c =>
      refine ⟨?_, ih h.2⟩
      cases hs : segText s with
      | nil =>
        have := h.1
        rw [hs] at this
        simp only [List.nil_append, List.cons_append, List.cons_prefix_cons, List.nil_prefix, and_true] at this
        intro h'
        rw [List.nil_append, List.cons_prefix_cons] at h'
        exact this h'.1
      | cons y l =>
        have := h.1
        rw [hs] at this
        intro h'
        refine this ?_
        simp only [List.cons_append, List.cons_prefix_cons, List.nil_prefix, and_true] at h' ⊢
        exact h'
    | op lead name =>
      refine ⟨h.1, h.2.1, ?_, ih h.2.2.2⟩
      obtain ⟨c, t', e, hc⟩ := h.2.2.1
      cases hs : segText s with
      | nil =>
        rw [hs] at e
        simp only [List.nil_append, List.cons_append, List.cons.injEq] at e
        rw [← e.1] at hc
        exact absurd hc (by decide)
      | cons y l =>
        rw [hs] at e
        simp only [List.cons_append, List.cons.injEq] at e
        exact ⟨y, l ++ r, rfl, by rw [e.1]; exact hc⟩

theorem removableAt_char {env : ParserEnv} {s : Str} (h : ¬ b!"{{" <+: s) : removableAt env s = none := by
  unfold removableAt
  rw [if_neg (by rw [hasPrefix_iff]; exact h)]

/-- The name decides whether a template is removed. -/
theorem removableAt_open {env : ParserEnv} {lead name t : Str} (h : GoodName lead name)
    (hr : removesTemplate env (normName env name) = false) (ht : EndsName t) :
    removableAt env (b!"{{" ++ lead ++ name ++ t) = none := by
  unfold removableAt
  split
  · cases hc : findClose (b!"{{" ++ lead ++ name ++ t) 2 b!"{{" b!"}}" with
    | none => rfl
    | some e =>
      rw [Option.bind_some]
      have hc' : closeLoop false b!"{{" b!"}}" t 0 (2 + (lead ++ name).length) 0 = some e := by
        rw [← hc, ← tclose_name (lead ++ name) h.noBrace]
        unfold findClose findCloseWith
        congr 1
      have hsh := closeLoop_shift false b!"{{" b!"}}" t 0 0 (2 + (lead ++ name).length) 0
      rw [Nat.zero_add] at hsh
      rw [hsh, Option.map_eq_some_iff] at hc'
      obtain ⟨e0, -, rfl⟩ := hc'
      have htake : (b!"{{" ++ lead ++ name ++ t).take (e0 + (2 + (lead ++ name).length) + 2) =
          b!"{{" ++ lead ++ name ++ t.take (e0 + 2) := by
        rw [show e0 + (2 + (lead ++ name).length) + 2 = (b!"{{" ++ lead ++ name).length + (e0 + 2) by
          simp; omega, List.take_length_add_append]
      have ht' : EndsName (t.take (e0 + 2)) := by
        obtain ⟨c, t', rfl, hcc⟩ := ht
        exact ⟨c, t'.take (e0 + 1), rfl, hcc⟩
      rw [htake, templateName, findTemplateName_of lead name _ h.lead h.head h.chars ht']
      simp only [Option.map_some, Option.bind_some]
      rw [show trimSpace (env.lower name) = normName env name from rfl, hr]
      rfl
  · rfl

/-- No template in the handled part would be removed. -/
theorem kept_removable {env : ParserEnv} {s : List Seg} {r : Str} (h : Kept env s r) :
    ∀ j < (segText s).length, removableAt env ((segText s ++ r).drop j) = none := by
  induction s with
  | nil => intro j hj; simp [segText] at hj
  | cons x s ih =>
    intro j hj
    cases x with
    | ch c =>
      cases j with
      | zero => exact removableAt_char h.1
      | succ j => exact ih h.2 j (by simpa [segText] using hj)
    | op lead name =>
      obtain ⟨h1, h2, h3, h4⟩ := h
      have e : segText (.op lead name :: s) ++ r = 0x7B :: 0x7B :: ((lead ++ name) ++ (segText s ++ r)) := by
        simp [segText]
      have hb : ∀ n : Nat, n < (lead ++ name).length → ∃ c t, ((lead ++ name) ++ (segText s ++ r)).drop n = c :: t ∧ c ≠ 0x7B := by
        intro n hn
        refine ⟨(lead ++ name)[n], ((lead ++ name) ++ (segText s ++ r)).drop (n + 1), ?_, (h1.noBrace _ (List.getElem_mem hn)).1⟩
        rw [List.drop_eq_getElem_cons (by rw [List.length_append]; omega), List.getElem_append_left hn]
      have h0 : 0 < (lead ++ name).length := by
        obtain ⟨c, t, rfl, -⟩ := h1.head
        simp; omega
      match j with
      | 0 =>
        have := removableAt_open (t := segText s ++ r) h1 h2 h3
        simpa [segText] using this
      | 1 =>
        rw [e]
        obtain ⟨c, t, e2, hc⟩ := hb 0 h0
        rw [List.drop_zero] at e2
        refine removableAt_char ?_
        rw [List.drop_succ_cons, List.drop_zero, e2]
        simp only [List.cons_prefix_cons, List.nil_prefix, and_true, true_and]
        exact fun h => hc h.symm
      | j + 2 =>
        rw [e, List.drop_succ_cons, List.drop_succ_cons]
        by_cases hj2 : j < (lead ++ name).length
        · obtain ⟨c, t, e2, hc⟩ := hb j hj2
          refine removableAt_char ?_
          rw [e2, List.cons_prefix_cons]
          exact fun h => hc h.1.symm
        · rw [List.drop_append, List.drop_eq_nil_of_le (by omega), List.nil_append]
          refine ih h4 _ ?_
          simp [segText] at hj hj2 ⊢
          omega

theorem prefix_two_congr {x y c d : Byte} {s a b : Str} (h : [x, y] <+: c :: (s ++ d :: a)) : [x, y] <+: c :: (s ++ d :: b) := by
  cases s with
  | nil => simpa [List.cons_prefix_cons] using h
  | cons z s => simpa [List.cons_prefix_cons] using h

/-- Only the next character behind the text matters. -/
theorem wellFormed_after {d : TemplateText} {c : Byte} {a : Str} (b : Str) (h : d.WellFormed (c :: a)) : d.WellFormed (c :: b) := by
  induction d generalizing c a b with
  | nil => trivial
  | char x rest ih =>
    exact ⟨fun h' => h.1 (prefix_two_congr h'), fun h' => h.2.1 (prefix_two_congr h'), ih b h.2.2⟩
  | template lead name args rest ih1 ih2 =>
    obtain ⟨h1, h2, h3, h4, h5, h6⟩ := h
    refine ⟨h1, h2, h3, h4, ?_, ih2 b h6⟩
    exact ih1 (c := 0x7D) (a := 0x7D :: (rest.text ++ c :: a)) (0x7D :: (rest.text ++ c :: b)) (by simpa using h5)

/-- The text of a template. -/
def templateStr (lead name args : Str) : Str := b!"{{" ++ lead ++ name ++ args ++ b!"}}"

theorem removableAt_remove {env : ParserEnv} {lead name : Str} {args : TemplateText} {t : Str} (h : GoodName lead name)
    (hr : removesTemplate env (normName env name) = true) (ha : EndsName (args.text ++ b!"}}"))
    (hw : args.WellFormed (b!"}}" ++ t)) :
    removableAt env (templateStr lead name args.text ++ t) =
      some ((templateStr lead name args.text).length, normName env name) := by
  unfold removableAt templateStr
  have e : b!"{{" ++ lead ++ name ++ args.text ++ b!"}}" ++ t =
      0x7B :: 0x7B :: ((lead ++ name) ++ (args.text ++ (0x7D :: 0x7D :: t))) := by simp
  rw [e, if_pos (by simp [hasPrefix])]
  have hf : findClose (0x7B :: 0x7B :: ((lead ++ name) ++ (args.text ++ (0x7D :: 0x7D :: t)))) 2 b!"{{" b!"}}" =
      some (2 + (lead ++ name).length + args.text.length) := by
    unfold findClose findCloseWith
    rw [List.drop_succ_cons, List.drop_succ_cons, List.drop_zero, tclose_name _ h.noBrace, tclose_text _ (0x7D :: 0x7D :: t) hw,
      tclose_close, if_pos rfl]
  rw [hf, Option.bind_some]
  have htake : (0x7B :: 0x7B :: ((lead ++ name) ++ (args.text ++ (0x7D :: 0x7D :: t)))).take
      (2 + (lead ++ name).length + args.text.length + 2) = b!"{{" ++ lead ++ name ++ (args.text ++ b!"}}") := by
    rw [← e, List.take_append_of_le_length (by simp; omega), List.take_of_length_le (by simp; omega)]
    simp
  rw [htake, templateName, findTemplateName_of lead name _ h.lead h.head h.chars ha]
  simp only [Option.map_some, Option.bind_some]
  rw [show trimSpace (env.lower name) = normName env name from rfl, if_pos hr]
  simp
  omega

/-- Removing a template. -/
theorem reach_remove {env : ParserEnv} {s : List Seg} {lead name : Str} {args : TemplateText} {t : Str} {found : List Str}
    (h : GoodName lead name) (hr : removesTemplate env (normName env name) = true) (ha : EndsName (args.text ++ b!"}}"))
    (hw : args.WellFormed (b!"}}" ++ t)) (hk : Kept env s (templateStr lead name args.text ++ t)) :
    Reach env (segText s ++ (templateStr lead name args.text ++ t)) (segText s).length found (segText s ++ t) (segText s).length
      (if normName env name ∈ (env.config.list .trailingTemplates).map env.lower then found ++ [normName env name] else found) := by
  refine ⟨1, fun fuel => ?_⟩
  have hlen : (templateStr lead name args.text).length ≥ 2 := by simp [templateStr]
  rw [templateLoop_step _ _ _ _ _ (by simp; omega), List.drop_left, removableAt_remove h hr ha hw]
  simp only [List.take_left]
  rw [← List.append_assoc, replaceFirst_append]
  · intro h0; rw [h0] at hlen; simp at hlen
  · intro j hj hp
    have hn := kept_removable hk j hj
    rw [← List.append_assoc] at hn
    obtain ⟨y, hy⟩ := hp
    rw [← hy, removableAt_remove h hr ha (wellFormed_after (c := 0x7D) _ hw)] at hn
    cases hn

theorem reach_chars {env : ParserEnv} {c : Str} {i n : Nat} {f : List Str}
    (h : ∀ j < n, removableAt env (c.drop (i + j)) = none) : Reach env c i f c (i + n) f := by
  induction n with
  | zero => exact .refl
  | succ n ih =>
    exact (ih fun j hj => h j (by omega)).trans (reach_char (h n (by omega)))

/-- The names of the removed templates that are added at the end. -/
def foundNames (env : ParserEnv) (d : TemplateText) : List Str :=
  (d.outermost (fun n => removesTemplate env (normName env n))
    (fun n => decide (normName env n ∈ (env.config.list .trailingTemplates).map env.lower))).map fun x => normName env x.2.1

/-- The loop on a well-formed text. -/
theorem reach_text (env : ParserEnv) (d : TemplateText) : ∀ (after : Str), d.WellFormed after → ∀ (s : List Seg) (found : List Str),
    Kept env s (d.text ++ after) → ∃ s', segText s' = segText s ++ (d.without fun n => removesTemplate env (normName env n)).text ∧
      Kept env s' after ∧
      Reach env (segText s ++ (d.text ++ after)) (segText s).length found (segText s' ++ after) (segText s').length
        (found ++ foundNames env d) := by
  have hstep : ∀ (s t : List Seg) (r : Str) (found : List Str), Kept env (s ++ t) r →
      Reach env (segText s ++ (segText t ++ r)) (segText s).length found (segText (s ++ t) ++ r) (segText (s ++ t)).length found := by
    intro s t r found hk
    rw [← List.append_assoc, ← segText_append, segText_append s t, List.length_append, ← segText_append]
    refine reach_chars fun j hj => ?_
    exact kept_removable hk _ (by rw [segText_append, List.length_append]; omega)
  induction d with
  | nil => intro after _ s found hk; exact ⟨s, by simp [without, text], hk, by simp [foundNames, outermost, text]; exact .refl⟩
  | char c rest ih =>
    intro after hw s found hk
    have hk' : Kept env (s ++ [.ch c]) (rest.text ++ after) := by
      refine kept_append ?_ ⟨?_, trivial⟩
      · simpa [segText, text] using hk
      · simpa [segText] using hw.1
    obtain ⟨s', h1, h2, h3⟩ := ih after hw.2.2 (s ++ [.ch c]) found hk'
    refine ⟨s', ?_, h2, ?_⟩
    · rw [h1, segText_append]; simp [segText, without, text]
    · refine .trans ?_ h3
      exact hstep s [.ch c] (rest.text ++ after) found hk'
  | template lead name args rest ih1 ih2 =>
    intro after ⟨h1, h2, h3, h4, h5, h6⟩ s found hk
    have hg : GoodName lead name := ⟨h1, h2, h3⟩
    have etext : (template lead name args rest).text ++ after = templateStr lead name args.text ++ (rest.text ++ after) := by
      simp [text, templateStr]
    by_cases hr : removesTemplate env (normName env name) = true
    · rw [etext] at hk ⊢
      have hk' : Kept env s (rest.text ++ after) := by
        refine kept_replace (t := lead ++ name ++ args.text ++ b!"}}" ++ (rest.text ++ after)) _ ?_
        simpa [templateStr] using hk
      have hfirst := reach_remove (found := found) hg hr h4 (t := rest.text ++ after) (by simpa using h5) hk
      obtain ⟨s', e1, e2, e3⟩ := ih2 after h6 s _ hk'
      refine ⟨s', by simpa [without, hr] using e1, e2, ?_⟩
      have hfound : found ++ foundNames env (template lead name args rest) =
          (if normName env name ∈ (env.config.list .trailingTemplates).map env.lower then found ++ [normName env name] else found) ++
            foundNames env rest := by
        unfold foundNames
        simp only [outermost, hr, if_true, decide_eq_true_eq, List.map_append]
        split <;> simp
      rw [hfound]
      exact hfirst.trans e3
    · have hr' : removesTemplate env (normName env name) = false := by simpa using hr
      have eopen : (template lead name args rest).text ++ after =
          segText [.op lead name] ++ (args.text ++ (b!"}}" ++ rest.text ++ after)) := by simp [text, segText]
      rw [eopen] at hk ⊢
      have hk1 : Kept env (s ++ [.op lead name]) (args.text ++ (b!"}}" ++ rest.text ++ after)) := by
        refine kept_append hk ⟨hg, hr', ?_, trivial⟩
        obtain ⟨c, t, e, hc⟩ := h4
        refine ⟨c, t ++ (rest.text ++ after), ?_, hc⟩
        rw [← List.cons_append, ← e]
        simp [segText]
      obtain ⟨s1, a1, a2, a3⟩ := ih1 _ h5 _ found hk1
      have hk2 : Kept env (s1 ++ [.ch 0x7D, .ch 0x7D]) (rest.text ++ after) := by
        refine kept_append (by simpa [segText] using a2) ⟨?_, ?_, trivial⟩
        · simp [List.cons_prefix_cons]
        · simp [List.cons_prefix_cons]
      obtain ⟨s2, b1, b2, b3⟩ := ih2 after h6 _ (found ++ foundNames env args) hk2
      refine ⟨s2, ?_, b2, ?_⟩
      · rw [b1, segText_append, a1, segText_append]
        simp [segText, without, hr', text]
      · have hfound : found ++ foundNames env (template lead name args rest) =
            found ++ foundNames env args ++ foundNames env rest := by
          unfold foundNames
          simp [outermost, hr']
        rw [hfound]
        refine (hstep s [.op lead name] _ found hk1).trans (a3.trans (.trans ?_ b3))
        have := hstep s1 [.ch 0x7D, .ch 0x7D] (rest.text ++ after) (found ++ foundNames env args) hk2
        simpa [segText] using this

/-- The result for well-formed texts. -/
theorem handleTemplates_text (env : ParserEnv) (d : TemplateText) (h : d.WellFormed []) :
    handleUnwantedAndTrailingTemplates env d.text =
      (d.without fun n => removesTemplate env (normName env n)).text ++
        (foundNames env d).flatMap fun name => b!"\n{{" ++ name ++ b!"}}" := by
  obtain ⟨s', h1, -, k, h3⟩ := reach_text env d [] h [] [] trivial
  simp only [segText, List.nil_append, List.append_nil, List.length_nil] at h1 h3
  have hfin := h3 d.text.length
  have hend : templateLoop env d.text.length (segText s') (segText s').length (foundNames env d) =
      (segText s', foundNames env d) := by
    cases d.text.length with
    | zero => rfl
    | succ n => rw [templateLoop, if_neg (by omega)]
  rw [hend, templateLoop_fuel _ _ _ _ _ _ (by omega)] at hfin
  unfold handleUnwantedAndTrailingTemplates
  rw [hfin, h1]

end Verif.Lemmas
