import Verif.Model.ArticleText
import Verif.Spec.PlainText
import Verif.Spec.Paragraphs
import Verif.Lemmas.Formatting
import Verif.Lemmas.TokMonad
import Verif.Lemmas.WikiLinks
import Verif.Lemmas.TableClosed
import Verif.Lemmas.ArticleStats
import Verif.Props.Paragraphs

/-!
# Lemmas about text without markup
-/

namespace Verif.Model
open Verif.Go Verif.Spec Verif.Lemmas
open scoped List

/-- A line that no step of the tokenizer changes: a line of text without markup, an empty line or a marker. -/
structure CalmLine (l : Str) : Prop where
  oneLine : (0x0A : Byte) ∉ l
  noList : ∀ c, (trimSpace l).head? = some c → c ∉ b!"*#;:"
  noHeading : ¬ (b!"=" <+: trimSpace l ∧ b!"=" <:+ trimSpace l)
  noTable : ¬ b!"{|" <+: trimSpace l
  noBracket : (0x5B : Byte) ∉ l
  noTemplate : ¬ b!"{{" <:+: l
  noTag : TagFree l
  noEmphasis : ¬ b!"''" <:+: l

theorem OrdinaryLine.calm {l : Str} (h : OrdinaryLine l) : CalmLine l :=
  ⟨h.oneLine, by rw [h.trimmed]; exact h.noList, by rw [h.trimmed]; exact h.noHeading, by rw [h.trimmed]; exact h.noTable, h.noBracket,
    h.noTemplate, h.noTag, h.noEmphasis⟩

theorem tagFree_of_no_lt {s : Str} (h : (0x3C : Byte) ∉ s) : TagFree s :=
  ⟨fun _ _ hi => h (hi.subset (by simp)), fun _ _ hi => h (hi.subset (by simp))⟩

theorem calm_nil : CalmLine [] := by
  refine ⟨by simp, by simp [trimSpace_nil], by simp [trimSpace_nil], by simp [trimSpace_nil], by simp, by simp, tagFree_of_no_lt (by simp), by simp⟩

theorem calm_marker : CalmLine markerParagraph := by
  have htr : trimSpace markerParagraph = markerParagraph := by decide +kernel
  refine ⟨by decide, ?_, ?_, by rw [htr]; decide, by decide, ?_, ?_, ?_⟩
  · rw [htr]
    intro c hc
    have : c = 0x24 := by simpa [markerParagraph] using hc.symm
    subst this
    decide
  · rw [htr]; decide
  · rw [← contains_eq_false_iff]; decide
  · exact tagFree_of_no_lt (by decide)
  · rw [← contains_eq_false_iff]; decide

/-! ### Texts -/

theorem not_infix_lines {p : Str} (hp : p ≠ []) (hc : (0x0A : Byte) ∉ p) (ws : List Str) (h : ∀ w ∈ ws, ¬ p <:+: w) :
    ¬ p <:+: join b!"\n" ws := by
  induction ws with
  | nil => simpa [join] using hp
  | cons w ws ih =>
    by_cases hw : ws = []
    · subst hw
      exact h w (by simp)
    · rw [join_cons_of_ne_nil hw, List.append_assoc]
      intro hh
      rcases infix_over (c := (0x0A : Byte)) hp hc hh with hh | hh
      · exact h w (by simp) hh
      · exact ih (fun x hx => h x (by simp [hx])) hh

theorem _root_.Verif.Spec.TagFree.infix {a b : Str} (h : TagFree b) (hs : a <:+: b) : TagFree a :=
  ⟨fun c hc hi => h.start c hc (hi.trans hs), fun c hc hi => h.stop c hc (hi.trans hs)⟩

theorem _root_.Verif.Spec.TagFree.suffix {a b : Str} (h : TagFree b) (hs : a <:+ b) : TagFree a := h.infix hs.isInfix

theorem _root_.Verif.Spec.TagFree.drop {s : Str} (h : TagFree s) (i : Nat) : TagFree (s.drop i) := h.suffix (List.drop_suffix _ _)

theorem tagCharacter_not_newline {c : Byte} (h : TagCharacter c) : (0x0A : Byte) ∉ [0x3C, c] ∧ (0x0A : Byte) ∉ [0x3C, 0x2F, c] := by
  unfold TagCharacter at h
  revert h
  revert c
  decide

theorem tagFree_lines {ls : List Str} (h : ∀ l ∈ ls, CalmLine l) : TagFree (join b!"\n" ls) :=
  ⟨fun c hc => not_infix_lines (by simp) (tagCharacter_not_newline hc).1 ls fun l hl => (h l hl).noTag.start c hc,
    fun c hc => not_infix_lines (by simp) (tagCharacter_not_newline hc).2 ls fun l hl => (h l hl).noTag.stop c hc⟩

/-- The only tags that begin in the text are those of formulas. -/
structure OnlyMath (s : Str) : Prop where
  start : ∀ c, TagCharacter c → c ≠ 0x6D → ¬ [0x3C, c] <:+: s
  stop : ∀ c, TagCharacter c → c ≠ 0x6D → ¬ [0x3C, 0x2F, c] <:+: s

theorem _root_.Verif.Spec.TagFree.onlyMath {s : Str} (h : TagFree s) : OnlyMath s :=
  ⟨fun c hc _ => h.start c hc, fun c hc _ => h.stop c hc⟩

theorem OnlyMath.infix {a b : Str} (h : OnlyMath b) (hs : a <:+: b) : OnlyMath a :=
  ⟨fun c h1 h2 hi => h.start c h1 h2 (hi.trans hs), fun c ht hc hi => h.stop c ht hc (hi.trans hs)⟩

theorem OnlyMath.drop {s : Str} (h : OnlyMath s) (i : Nat) : OnlyMath (s.drop i) := h.infix (List.drop_suffix _ _).isInfix

theorem lowerByte_eq (b : Byte) : (lowerByte b = 0x3C → b = 0x3C) ∧ (TagCharacter (lowerByte b) → TagCharacter b) := by
  have key : ∀ n : Fin 256, (lowerByte (UInt8.ofNat n.val) = 0x3C → UInt8.ofNat n.val = 0x3C) ∧
      (TagCharacter (lowerByte (UInt8.ofNat n.val)) → TagCharacter (UInt8.ofNat n.val)) := by
    unfold TagCharacter
    decide +kernel
  simpa using key ⟨b.toNat, b.toNat_lt⟩

theorem OnlyMath.token {s : Str} (h : OnlyMath s) {n : Nat} {c : Byte} {t : Str} (hc : TagCharacter (lowerByte c))
    (hm : lowerByte c ≠ 0x6D) : equalsIgnoreCase (s.take n) (0x3C :: c :: t) = false := by
  rw [← Bool.not_eq_true]
  intro he
  have e : (s.take n).map lowerByte = (0x3C :: c :: t).map lowerByte := by simpa [equalsIgnoreCase] using he
  match s, n with
  | [], _ => simp at e
  | _ :: _, 0 => simp at e
  | [_], _ + 1 => simp at e
  | _ :: _ :: _, 1 => simp at e
  | a :: b :: s, n + 2 =>
    simp only [List.take_succ_cons, List.map_cons, List.cons.injEq] at e
    obtain ⟨e1, e2, _⟩ := e
    have ha : a = 0x3C := (lowerByte_eq a).1 (by rw [e1]; rfl)
    subst ha
    refine h.start b ((lowerByte_eq b).2 (by rw [e2]; exact hc)) ?_ ⟨[], s, rfl⟩
    rintro rfl
    exact hm (by rw [← e2]; rfl)

theorem lowerByte_slash {b : Byte} (h : lowerByte b = 0x2F) : b = 0x2F := by
  unfold lowerByte at h
  split at h
  · rename_i hb
    exfalso
    simp only [Bool.and_eq_true, decide_eq_true_eq] at hb
    have h1 := UInt8.le_iff_toNat_le.mp hb.1
    have h2 := UInt8.le_iff_toNat_le.mp hb.2
    have h3 := congrArg UInt8.toNat h
    simp at h1 h2 h3
    omega
  · exact h

theorem OnlyMath.endToken {s : Str} (h : OnlyMath s) {n : Nat} {c : Byte} {t : Str} (ht : TagCharacter (lowerByte c)) (hc : lowerByte c ≠ 0x6D) :
    equalsIgnoreCase (s.take n) (0x3C :: 0x2F :: c :: t) = false := by
  rw [← Bool.not_eq_true]
  intro he
  have e : (s.take n).map lowerByte = (0x3C :: 0x2F :: c :: t).map lowerByte := by simpa [equalsIgnoreCase] using he
  match s, n with
  | [], _ => simp at e
  | _ :: _, 0 => simp at e
  | [_], _ + 1 => simp at e
  | _ :: _ :: _, 1 => simp at e
  | [_, _], _ + 2 => simp at e
  | _ :: _ :: _ :: _, 2 => simp at e
  | a :: b :: d :: s, n + 3 =>
    simp only [List.take_succ_cons, List.map_cons, List.cons.injEq] at e
    obtain ⟨e1, e2, e3, _⟩ := e
    have ha : a = 0x3C := (lowerByte_eq a).1 (by rw [e1]; rfl)
    have hb : b = 0x2F := lowerByte_slash (by rw [e2]; rfl)
    subst ha hb
    refine h.stop d ((lowerByte_eq d).2 (by rw [e3]; exact ht)) ?_ ⟨[], s, rfl⟩
    rintro rfl
    exact hc (by rw [← e3]; rfl)

theorem OnlyMath.fold {s : Str} (h : OnlyMath s) {c : Byte} {t : Str} (hc : TagCharacter c) (hs : c ≠ 0x73) (hm : c ≠ 0x6D) :
    foldPrefix (0x3C :: c :: t) s = none := by
  match s with
  | [] => rfl
  | a :: s =>
    rw [foldPrefix.eq_def]
    simp only
    split
    · rename_i ha
      have ha : a = 0x3C := (lowerByte_eq a).1 ha
      subst ha
      match s with
      | [] => rfl
      | b :: s =>
        rw [foldPrefix.eq_def]
        simp only
        rw [if_neg, if_neg (by simp [hs])]
        intro hb
        refine h.start b ((lowerByte_eq b).2 (by rw [hb]; exact hc)) ?_ ⟨[], s, rfl⟩
        rintro rfl
        exact hm (by rw [← hb]; rfl)
    · rw [if_neg (by simp)]

/-- Neither a comment nor the tag `nowiki` begins in the text. -/
def CalmTags (s : Str) : Prop := ∀ c ∈ b!"!nN", ¬ [0x3C, c] <:+: s

theorem OnlyMath.calmTags {s : Str} (h : OnlyMath s) : CalmTags s := by
  intro c hc
  simp only [List.mem_cons, List.not_mem_nil, or_false] at hc
  rcases hc with rfl | rfl | rfl <;> exact h.start _ (by unfold TagCharacter; decide) (by decide)

theorem CalmTags.nowiki {s : Str} (h : CalmTags s) (n : Nat) (t : Str) : equalsIgnoreCase (s.take n) (0x3C :: 0x6E :: t) = false := by
  rw [← Bool.not_eq_true]
  intro he
  have e : (s.take n).map lowerByte = (0x3C :: 0x6E :: t).map lowerByte := by simpa [equalsIgnoreCase] using he
  match s, n with
  | [], _ => simp at e
  | _ :: _, 0 => simp at e
  | [_], _ + 1 => simp at e
  | _ :: _ :: _, 1 => simp at e
  | a :: b :: s, n + 2 =>
    simp only [List.take_succ_cons, List.map_cons, List.cons.injEq] at e
    obtain ⟨e1, e2, _⟩ := e
    have ha : a = 0x3C := (lowerByte_eq a).1 (by rw [e1]; rfl)
    subst ha
    have hb : b = 0x6E ∨ b = 0x4E := by
      clear he e1 h
      rw [show lowerByte 0x6E = 0x6E by decide] at e2
      unfold lowerByte at e2
      split at e2
      · refine Or.inr ?_
        have h3 := congrArg UInt8.toNat e2
        rename_i hb
        simp only [Bool.and_eq_true, decide_eq_true_eq] at hb
        have h1 := UInt8.le_iff_toNat_le.mp hb.1
        have h2 := UInt8.le_iff_toNat_le.mp hb.2
        apply UInt8.toNat_inj.mp
        simp at h1 h2 h3 ⊢
        omega
      · exact Or.inl e2
    rcases hb with rfl | rfl
    · exact h 0x6E (by decide) ⟨[], s, rfl⟩
    · exact h 0x4E (by decide) ⟨[], s, rfl⟩

theorem CalmTags.drop {s : Str} (h : CalmTags s) (i : Nat) : CalmTags (s.drop i) :=
  fun c hc hi => h c hc (hi.trans (List.drop_suffix _ _).isInfix)

/-! ### The steps of the tokenizer -/

theorem nowikiLoop_calm {content : Str} (h : CalmTags content) : ∀ (fuel i : Nat), content.length < fuel + i → 0 < fuel →
    nowikiLoop fuel content i = pure content := by
  intro fuel
  induction fuel with
  | zero => intro i _ h; omega
  | succ fuel ih =>
    intro i hf _
    rw [nowikiLoop]
    split
    · rw [CalmTags.nowiki (h.drop i), if_neg (by simp)]
      exact ih (i + 1) (by omega) (by omega)
    · rfl

theorem refLoop_calm (rec : Rec) {content : Str} (h : OnlyMath content) (st : RefState) : ∀ (fuel i : Nat), content.length < fuel + i → 0 < fuel →
    refLoop rec fuel content i st = pure content := by
  intro fuel
  induction fuel with
  | zero => intro i _ h; omega
  | succ fuel ih =>
    intro i hf _
    rw [refLoop]
    split
    · simp only
      rw [OnlyMath.token (h.drop i) (by unfold TagCharacter; decide) (by decide), OnlyMath.endToken (h.drop i) (by unfold TagCharacter; decide) (by decide),
        if_neg (by simp)]
      exact ih (i + 1) (by omega) (by omega)
    · rfl

theorem boldItalic_calm {content : Str} (h : ¬ b!"''" <:+: content) (fuel : Nat) (hf : 0 < fuel) :
    parseBoldAndItalic fuel content = pure content := by
  obtain ⟨f, rfl⟩ := Nat.exists_eq_add_of_le' hf
  obtain ⟨u, rest, e1, e2, e3, e4, _⟩ := skipToMark_spec content 0
  have : boldItalicLoop (f + 1) content 0 = some content := by
    rw [boldItalicLoop, List.drop_zero, e2]
    rcases e4 with h' | h'
    · exact absurd (e1 ▸ h'.isInfix.trans (List.suffix_append u rest).isInfix) h
    · rw [if_neg (by rw [e1]; simp; omega)]
  funext s
  rw [parseBoldAndItalic, this]
  rfl

theorem headingLines_calm (rec : Rec) (depth : Nat) (ls : List Str) (h : ∀ l ∈ ls, CalmLine l) :
    headingLines rec (depth + 1) ls = pure ls := by
  induction ls with
  | nil => rfl
  | cons l ls ih =>
    have hl := h l (by simp)
    have : headingLine rec (depth + 1) l = pure l := by
      rw [headingLine, if_neg]
      intro hh
      rw [isHeadingOf, Bool.and_eq_true, hasPrefix_iff, hasSuffix_iff] at hh
      refine hl.noHeading ⟨List.IsPrefix.trans ?_ hh.1, List.IsSuffix.trans ?_ hh.2⟩
      · exact ⟨repeatStr b!"=" depth, by rfl⟩
      · refine ⟨repeatStr b!"=" depth, ?_⟩
        clear hh ih
        induction depth with
        | zero => rfl
        | succ n ihn => 
          show 0x3D :: (repeatStr b!"=" n ++ b!"=") = 0x3D :: repeatStr b!"=" (n + 1)
          rw [ihn]
    rw [headingLines, this, ih (fun x hx => h x (by simp [hx]))]
    rfl

theorem headingDepths_calm (rec : Rec) (ls : List Str) (h : ∀ l ∈ ls, CalmLine l) (depth : Nat) : headingDepths rec depth ls = pure ls := by
  induction depth with
  | zero => rfl
  | succ depth ih =>
    rw [headingDepths, headingLines_calm rec depth ls h, pure_bind, ih]

theorem parseLink_calm (env : ParserEnv) (rec : Rec) (x : LinkSyntax) {content : Str} (hx : x.opening ≠ []) (h : ¬ x.opening <:+: content) :
    parseLink env rec x content = pure content := by
  have : splitHead content x.opening = (content, []) := by rw [splitHead, split_of_not_infix hx h]
  rw [parseLink, this]
  show (pure (content ++ [].flatten) : TokM Str) = _
  simp

theorem OnlyMath.trim {s : Str} (h : OnlyMath s) : OnlyMath (trimSpace s) := h.infix (trimSpace_infix s)

theorem galleryLines_calm (env : ParserEnv) (ls : List Str) (h : ∀ l ∈ ls, OnlyMath l) : galleryLines env ls false = pure ls := by
  induction ls with
  | nil => rfl
  | cons l ls ih =>
    have hl := h l (by simp)
    have hm : matchGallery (trimSpace l) = none := by
      rw [matchGallery, matchTag, OnlyMath.fold hl.trim (by unfold TagCharacter; decide) (by decide) (by decide)]
    rw [galleryLines]
    simp only
    rw [OnlyMath.endToken hl.trim (by unfold TagCharacter; decide) (by decide), if_neg (by simp), hm]
    simp only [Bool.false_eq_true, if_false]
    rw [ih (fun x hx => h x (by simp [hx]))]
    rfl

theorem imageMapLines_calm (env : ParserEnv) (ls : List Str) (h : ∀ l ∈ ls, OnlyMath l) : imageMapLines env ls false = pure ls := by
  induction ls with
  | nil => rfl
  | cons l ls ih =>
    have hl := h l (by simp)
    have hm : matchImagemap l = none := by
      rw [matchImagemap, matchTag, OnlyMath.fold hl (by unfold TagCharacter; decide) (by decide) (by decide)]
    have he : equalsIgnoreCase l b!"</imagemap>" = false := by
      have := OnlyMath.endToken (s := l) hl (n := l.length) (c := 0x69) (t := b!"magemap>") (by unfold TagCharacter; decide) (by decide)
      rwa [List.take_length] at this
    rw [imageMapLines.eq_def]
    simp only [he, hm, Bool.false_eq_true, if_false]
    rw [ih (fun x hx => h x (by simp [hx]))]
    rfl

theorem findLinkStart_calm : ∀ (s : Str) (i : Nat), ¬ b!"[[" <:+: s → findLinkStart s i = none := by
  intro s
  induction s with
  | nil => intros; rfl
  | cons c s ih =>
    intro i h
    rw [findLinkStart.eq_def]
    simp only
    rw [if_neg, ih _ (fun hm => h (List.infix_cons hm))]
    rw [hasPrefix_iff]
    exact fun hp => h hp.isInfix

theorem findMath_calm : ∀ (s : Str), TagFree s → findMath s 0 = [] := by
  intro s
  induction s with
  | nil => intros; rfl
  | cons c s ih =>
    intro h
    have : matchMath (c :: s) = none := by
      rw [matchMath, if_neg]
      rw [hasPrefix_iff]
      intro hp
      exact h.start 0x6D (by unfold TagCharacter; decide) ((List.IsPrefix.trans ⟨b!"ath", rfl⟩ hp).isInfix)
    rw [findMath, this]
    exact ih (h.suffix (List.suffix_cons _ _))

theorem parseListLines_calm (rec : Rec) (ls : List Str) (h : ∀ l ∈ ls, CalmLine l) : ∀ fuel, ls.length < fuel → parseListLines rec fuel ls = pure ls := by
  induction ls with
  | nil =>
    intro fuel hf
    obtain ⟨f, rfl⟩ := Nat.exists_eq_add_of_le' hf
    rfl
  | cons l ls ih =>
    intro fuel hf
    obtain ⟨f, rfl⟩ := Nat.exists_eq_add_of_le' (show 1 ≤ fuel by omega)
    have hl := h l (by simp)
    have ih := ih (fun x hx => h x (by simp [hx])) f (by simp at hf; omega)
    rw [parseListLines]
    cases ht : trimSpace l with
    | nil => simp only; rw [ih]; rfl
    | cons c t =>
      have hc : isListChar c = false := by
        have := hl.noList c (by rw [ht]; rfl)
        simp at this
        simp [isListChar, this]
      simp only [hc, Bool.false_eq_true, if_false]
      rw [ih]; rfl

theorem tableLoop_calm (rec : Rec) (ls : List Str) (h : ∀ l ∈ ls, ¬ b!"{|" <+: (trimSpace l).dropWhile (· = 0x3A)) : ∀ fuel, ls.length < fuel → tableLoop rec fuel ls = pure ls := by
  induction ls with
  | nil =>
    intro fuel hf
    obtain ⟨f, rfl⟩ := Nat.exists_eq_add_of_le' hf
    rfl
  | cons l ls ih =>
    intro fuel hf
    obtain ⟨f, rfl⟩ := Nat.exists_eq_add_of_le' (show 1 ≤ fuel by omega)
    have hl := h l (by simp)
    have ih := ih (fun x hx => h x (by simp [hx])) f (by simp at hf; omega)
    have hm : matchTableStart (trimSpace l) = none := by
      rw [matchTableStart, if_neg]
      rw [hasPrefix_iff]
      exact hl
    rw [tableLoop, hm]
    simp only
    rw [ih]; rfl

theorem CalmLine.noTableStart {l : Str} (h : CalmLine l) : ¬ b!"{|" <+: (trimSpace l).dropWhile (· = 0x3A) := by
  have hd : (trimSpace l).dropWhile (· = 0x3A) = trimSpace l := by
    cases ht : trimSpace l with
    | nil => rfl
    | cons c t =>
      have := h.noList c (by rw [ht]; rfl)
      simp at this
      simp [this]
  rw [hd]
  exact h.noTable

theorem length_join {sep : Str} (hs : sep ≠ []) (ls : List Str) : ls.length ≤ (join sep ls).length + 1 := by
  induction ls with
  | nil => simp
  | cons l ls ih =>
    by_cases h : ls = []
    · subst h; simp
    · rw [join_cons_of_ne_nil h]
      have : 0 < sep.length := List.length_pos_iff.mpr hs
      simp; omega

/-- One pass of the tokenizer only marks paragraphs. -/
theorem tokenizePass_calm (env : ParserEnv) (rec : Rec) {ls : List Str} (hne : ls ≠ []) (h : ∀ l ∈ ls, CalmLine l) (fuel : Nat)
    (hf : (join b!"\n" ls).length + 1 < fuel) : tokenizePass env rec fuel (join b!"\n" ls) = pure (parseParagraphs (join b!"\n" ls)) := by
  have ht := tagFree_lines h
  have hs : split (join b!"\n" ls) b!"\n" = ls := split_join_singleton hne (fun l hl => (h l hl).oneLine)
  have hb : (0x5B : Byte) ∉ join b!"\n" ls := not_mem_join (by decide) ls (fun l hl => (h l hl).noBracket)
  have hq : ¬ b!"''" <:+: join b!"\n" ls := not_infix_lines (by simp) (by decide) ls (fun l hl => (h l hl).noEmphasis)
  have hlen := length_join (sep := b!"\n") (by simp) ls
  unfold tokenizePass
  rw [show parseNowiki fuel (join b!"\n" ls) = pure _ from nowikiLoop_calm ht.onlyMath.calmTags fuel 0 (by omega) (by omega), pure_bind,
    boldItalic_calm hq fuel (by omega), pure_bind]
  rw [show parseHeadings rec (join b!"\n" ls) = pure (join b!"\n" ls) by
    rw [parseHeadings, hs, headingDepths_calm rec ls h, pure_bind], pure_bind]
  rw [show parseReferences rec fuel (join b!"\n" ls) = pure _ from refLoop_calm rec ht.onlyMath _ fuel 0 (by omega) (by omega), pure_bind]
  rw [show parseInternalLinks env rec (join b!"\n" ls) = pure _ from parseLink_calm env rec internalSyntax (by decide)
    (fun hi => hb (hi.subset (by decide))), pure_bind]
  rw [show parseGalleries env (join b!"\n" ls) = pure (join b!"\n" ls) by rw [parseGalleries, hs, galleryLines_calm env ls (fun l hl => TagFree.onlyMath (h l hl).noTag), pure_bind], pure_bind]
  rw [show parseImageMaps env (join b!"\n" ls) = pure (join b!"\n" ls) by rw [parseImageMaps, hs, imageMapLines_calm env ls (fun l hl => TagFree.onlyMath (h l hl).noTag), pure_bind], pure_bind]
  rw [show parseImages env rec fuel (join b!"\n" ls) = pure (join b!"\n" ls) by
    obtain ⟨f, rfl⟩ := Nat.exists_eq_add_of_le' (show 1 ≤ fuel by omega)
    rw [parseImages, imageLoop, findLinkStart_calm _ _ (fun hi => hb (hi.subset (by decide)))], pure_bind]
  rw [show parseExternalLinks env rec (join b!"\n" ls) = pure _ from parseLink_calm env rec externalSyntax (by decide)
    (fun hi => hb (hi.subset (by decide))), pure_bind]
  rw [show parseMath (join b!"\n" ls) = pure (join b!"\n" ls) by rw [parseMath, findMath_calm _ ht]; rfl, pure_bind]
  rw [show parseLists rec fuel (join b!"\n" ls) = pure (join b!"\n" ls) by
    rw [parseLists, hs, parseListLines_calm rec ls h fuel (by omega), pure_bind], pure_bind]
  rw [show parseTables rec fuel (join b!"\n" ls) = pure (join b!"\n" ls) by
    rw [parseTables, hs, tableLoop_calm rec ls (fun l hl => (h l hl).noTableStart) fuel (by omega), pure_bind], pure_bind]

/-! ### Cleaning -/

theorem commentSegments_calm (l : List Str) (hl : ∀ p ∈ l, ¬ b!"<!--" <:+: p) : commentSegments l = join b!"-->" l := by
  induction l with
  | nil => rfl
  | cons p l ih =>
    cases l with
    | nil => rfl
    | cons q l =>
      rw [commentSegments, split_of_not_infix (by simp) (hl p (by simp)), ih (fun x hx => hl x (by simp only [List.mem_cons] at hx ⊢; exact .inr hx)),
        join_cons_of_ne_nil (p := p) (l := q :: l) (by simp)]

theorem infix_of_mem_split {sep s p : Str} (h0 : sep ≠ []) (h : p ∈ split s sep) : p <:+: s := by
  have hj := join_split_self s h0
  rw [← hj]
  generalize split s sep = l at h
  induction l with
  | nil => cases h
  | cons q l ih =>
    by_cases hl : l = []
    · subst hl
      simp at h
      subst h
      exact List.infix_refl _
    · rw [join_cons_of_ne_nil hl]
      rcases List.mem_cons.mp h with rfl | h
      · exact ⟨[], sep ++ join sep l, by simp⟩
      · exact (ih h).trans (List.suffix_append _ _).isInfix

theorem removeComments_calm {s : Str} (h : CalmTags s) : removeComments s = s := by
  rw [removeComments, commentSegments_calm, join_split_self s (by simp)]
  intro p hp hi
  exact h 0x21 (by decide) ((List.IsInfix.trans ⟨[], b!"--", rfl⟩ hi).trans (infix_of_mem_split (by simp) hp))

theorem linkLoop_calm (env : ParserEnv) : ∀ (s : Str), (0x5B : Byte) ∉ s → linkLoop env s 0 = .ok s := by
  intro s
  induction s with
  | nil => intros; rfl
  | cons c s ih =>
    intro h
    rw [linkLoop]
    split
    · rfl
    · rw [if_neg, ih (fun hm => h (by simp [hm]))]
      · rfl
      · rw [hasPrefix_iff]
        intro hp
        exact h (hp.subset (by simp))

theorem not_prefix_drop {p s : Str} (h : ¬ p <:+: s) (i : Nat) : ¬ p <+: s.drop i :=
  fun hp => h (hp.isInfix.trans (List.drop_suffix _ _).isInfix)

theorem templateLoop_calm (env : ParserEnv) {s : Str} (h : ¬ b!"{{" <:+: s) : ∀ (fuel i : Nat), templateLoop env fuel s i [] = (s, []) := by
  intro fuel
  induction fuel with
  | zero => intros; rfl
  | succ fuel ih =>
    intro i
    rw [templateLoop]
    split
    · rw [if_neg (by rw [hasPrefix_iff]; exact not_prefix_drop h i), ih]
    · rfl

theorem railwayLoop_calm {s : Str} (h : ¬ b!"{{" <:+: s) : ∀ (fuel i : Nat), s.length < fuel + i → 0 < fuel → railwayLoop fuel s i = some (.ok s) := by
  intro fuel
  induction fuel with
  | zero => intro i _ h; omega
  | succ fuel ih =>
    intro i hf _
    rw [railwayLoop]
    split
    · rw [if_neg, ih (i + 1) (by omega) (by omega)]
      intro he
      refine not_prefix_drop h i (List.IsPrefix.trans ?_ (he ▸ List.take_prefix 12 (s.drop i)))
      exact ⟨b!"BS-table}}", rfl⟩
    · rfl

theorem sectionLoop_calm (ls : List Str) (h : ∀ l ∈ ls, headingDepth l = 0) : sectionLoop ls 0 = ls := by
  induction ls with
  | nil => rfl
  | cons l ls ih =>
    rw [sectionLoop, if_neg (by rw [h l (by simp)]; omega), ih (fun x hx => h x (by simp [hx]))]

theorem headingDepth_calm {l : Str} (h : CalmLine l) (ht : trimSpace l = l) : headingDepth l = 0 := by
  have hh := h.noHeading
  rw [ht] at hh
  rw [headingDepth, if_pos, if_neg]
  · rintro ⟨h1, _⟩
    rw [hasPrefix_iff] at h1
    exact h.noEmphasis (List.IsInfix.trans ⟨[], b!"'", rfl⟩ h1.isInfix)
  · rw [hasPrefix_iff, hasSuffix_iff]
    by_contra hc
    rw [not_or, not_not, not_not] at hc
    exact hh hc

/-- Cleaning does not change the text. -/
theorem cleanText_calm (env : ParserEnv) {ls : List Str} (hne : ls ≠ []) (h : ∀ l ∈ ls, CalmLine l) (htr : ∀ l ∈ ls, trimSpace l = l)
    (hn : ∀ l ∈ ls, ¬ b!"__NOTOC__" <:+: l)
    (fuel : Nat) (hf : (join b!"\n" ls).length < fuel) : cleanText env fuel (join b!"\n" ls) = some (.ok (join b!"\n" ls)) := by
  have ht := tagFree_lines h
  have hs : split (join b!"\n" ls) b!"\n" = ls := split_join_singleton hne (fun l hl => (h l hl).oneLine)
  have hb : (0x5B : Byte) ∉ join b!"\n" ls := not_mem_join (by decide) ls (fun l hl => (h l hl).noBracket)
  have hq : ¬ b!"{{" <:+: join b!"\n" ls := not_infix_lines (by simp) (by decide) ls (fun l hl => (h l hl).noTemplate)
  have e1 : handleUnwantedAndTrailingTemplates env (join b!"\n" ls) = join b!"\n" ls := by
    rw [handleUnwantedAndTrailingTemplates, templateLoop_calm env hq]
    simp
  have e2 : removeUnwantedWikitext (join b!"\n" ls) = join b!"\n" ls :=
    replaceAll_of_not_infix (not_infix_lines (by simp) (by decide) ls hn)
  have e3 : removeEmptyListEntries (join b!"\n" ls) = join b!"\n" ls := by
    rw [removeEmptyListEntries, hs, List.map_congr_left (g := id) htr, List.map_id, List.filter_eq_self.mpr]
    intro l hl
    cases l with
    | nil => rfl
    | cons c l =>
      have := (h _ hl).noList c (by rw [htr _ hl]; rfl)
      simp at this
      simp [keepListLine, isListBeginning, this]
  have e4 : removeEmptySections (join b!"\n" ls) = join b!"\n" ls := by
    rw [removeEmptySections, hs, sectionLoop_calm ls (fun l hl => headingDepth_calm (h l hl) (htr l hl))]
  rw [cleanText, removeComments_calm ht.onlyMath.calmTags, removeUnwantedInternalLinks, linkLoop_calm env _ hb]
  simp only [e1, e2, e3, e4]
  exact railwayLoop_calm hq fuel 0 (by omega) (by omega)

end Verif.Model
