import Verif.Spec.WikiImages
import Verif.Spec.Images
import Verif.Lemmas.Images
import Verif.Props.CleanLinks
import Verif.Lemmas.WikiLinks
import Verif.Lemmas.PlainText
import Verif.Lemmas.AtomLinks
import Verif.Props.Http

/-!
# Images in wikitext
-/

namespace Verif.Model
open Verif.Go Verif.Spec Verif.Lemmas Verif.Props
open scoped List

/-! ### Options -/

/-- What an option changes. -/
def applyOption (o : ImageOptions) : ImageOption → ImageOptions
  | .frame _ _ => { o with block := true, hasCaption := true }
  | .size w h => { o with sizeX := (w.map Int.ofNat).getD (-1), sizeY := (h.map Int.ofNat).getD (-1),
                          block := o.block || (ImageOption.size w h).isLarge }
  | .ignored _ => o
  | .other _ => o

theorem digits_x (n : Nat) : (0x78 : Byte) ∉ decimal n := fun h => by
  have := decimal_digits n _ h
  exact absurd this (by decide)

theorem trim_decimal (n : Nat) : trimSpace (decimal n) = decimal n := by
  refine trimSpace_visible ?_ ?_
  · intro c hc
    have := decimal_digits n c (List.mem_of_mem_head? hc)
    exact ⟨UInt8.le_trans (by decide) this.1, UInt8.le_trans this.2 (by decide)⟩
  · intro c hc
    have := decimal_digits n c (List.mem_of_mem_getLast? hc)
    exact ⟨UInt8.le_trans (by decide) this.1, UInt8.le_trans this.2 (by decide)⟩

theorem atoi_nil : atoi [] = none := by decide

theorem trimSuffix_append (a b : Str) : trimSuffix (a ++ b) b = a := by
  simp [trimSuffix]

theorem sizeOption_parts (o : ImageOptions) {t : Str} {parts : List Str} {w h : Option Nat} (hs : split t b!"x" = parts)
    (hx : (atoi (trimSpace (parts.headD []))).getD (-1) = (w.map Int.ofNat).getD (-1))
    (hy : (atoi (if parts.length = 2 then trimSpace (parts.getLastD []) else [])).getD (-1) = (h.map Int.ofNat).getD (-1)) :
    sizeOption (t ++ b!"px") o = applyOption o (.size w h) := by
  unfold sizeOption
  simp only [trimSuffix_append, hs, hx, hy, applyOption, ImageOption.isLarge]
  have e1 : decide ((100 : Int) ≤ (w.map Int.ofNat).getD (-1)) = decide (100 ≤ w.getD 0) := by
    cases w <;> simp
    omega
  have e2 : decide ((50 : Int) ≤ (h.map Int.ofNat).getD (-1)) = decide (50 ≤ h.getD 0) := by
    cases h <;> simp
    omega
  rw [e1, e2, Bool.or_assoc, Bool.or_comm (decide (50 ≤ h.getD 0))]

theorem sizeOption_source (w h : Option Nat) (hw : ∀ x ∈ w, x ≤ 9223372036854775807) (hh : ∀ x ∈ h, x ≤ 9223372036854775807) (o : ImageOptions) :
    sizeOption (ImageOption.size w h).source o = applyOption o (.size w h) := by
  rw [ImageOption.source.eq_def]
  cases w with
  | none =>
    cases h with
    | none => exact sizeOption_parts o (parts := [[]]) (by decide) (by decide +kernel) (by decide)
    | some h =>
      refine sizeOption_parts o (parts := [[], decimal h]) ?_ (by simp only [List.headD_cons]; decide +kernel) ?_
      · have : b!"x" ++ decimal h = join b!"x" [[], decimal h] := by simp [join]
        show split (b!"x" ++ decimal h) b!"x" = _
        rw [this]
        exact split_join_singleton (by simp) (by simp [digits_x])
      · simp [trim_decimal, atoi_decimal h (hh h rfl)]
  | some w =>
    cases h with
    | none =>
      refine sizeOption_parts o (parts := [decimal w]) ?_ ?_ (by simp [atoi_nil])
      · simp only [List.append_nil]; exact split_singleton_of_not_mem (digits_x w)
      · simp [trim_decimal, atoi_decimal w (hw w rfl)]
    | some h =>
      refine sizeOption_parts o (parts := [decimal w, decimal h]) ?_ ?_ ?_
      · have : decimal w ++ (b!"x" ++ decimal h) = join b!"x" [decimal w, decimal h] := by simp [join]
        show split (decimal w ++ (b!"x" ++ decimal h)) b!"x" = _
        rw [this]
        exact split_join_singleton (by simp) (by simp [digits_x])
      · simp [trim_decimal, atoi_decimal w (hw w rfl)]
      · simp [trim_decimal, atoi_decimal h (hh h rfl)]

theorem not_framePrefix {t : Str} (h : FreeText t) : hasAnyPrefix t imageNonInlineParameters = false := by
  simp only [hasAnyPrefix, imageNonInlineParameters, List.any_cons, List.any_nil, Bool.or_false, Bool.or_eq_false_iff]
  exact ⟨by rw [← Bool.not_eq_true, hasPrefix_iff]; exact h.1, by rw [← Bool.not_eq_true, hasPrefix_iff]; exact h.2.1⟩

theorem not_px {t : Str} (h : FreeText t) : hasSuffix t b!"px" = false := by
  rw [← Bool.not_eq_true, hasSuffix_iff]; exact h.2.2

theorem size_noFrame (w h : Option Nat) : hasAnyPrefix (ImageOption.size w h).source imageNonInlineParameters = false := by
  have : ∀ c, (ImageOption.size w h).source.head? = some c → c ≠ 0x6D ∧ c ≠ 0x74 := by
    intro c hc
    cases w with
    | some w =>
      obtain ⟨d, r, e⟩ := List.exists_cons_of_ne_nil (decimal_ne_nil w)
      have hd := decimal_digits w d (by simp [e])
      simp [ImageOption.source, e] at hc
      subst hc
      constructor <;> rintro rfl <;> exact absurd hd (by decide)
    | none =>
      cases h with
      | some h => simp [ImageOption.source] at hc; subst hc; decide
      | none => simp [ImageOption.source] at hc; subst hc; decide
  have key : ∀ p : Str, ∀ x t, p = x :: t → (x = 0x6D ∨ x = 0x74) → hasPrefix (ImageOption.size w h).source p = false := by
    rintro p x t rfl hx
    rw [← Bool.not_eq_true, hasPrefix_iff]
    rintro ⟨r, e⟩
    have := this x (by rw [← e]; rfl)
    rcases hx with rfl | rfl
    · exact this.1 rfl
    · exact this.2 rfl
  simp only [hasAnyPrefix, imageNonInlineParameters, List.any_cons, List.any_nil, Bool.or_false, Bool.or_eq_false_iff]
  exact ⟨key _ _ _ rfl (Or.inl rfl), key _ _ _ rfl (Or.inr rfl)⟩

theorem keep_iff {env : ParserEnv} {t : Str} : (!hasAnyPrefix t (env.config.list .ignoredImageParams)) = true ↔ ¬ IgnoredOption env t := by
  simp [hasAnyPrefix, IgnoredOption, hasPrefix_iff]

theorem imageOptions_sources (env : ParserEnv) (rec : Rec) (tail : List Str) (opts : List ImageOption) (h : ∀ o ∈ opts, o.WellFormed env)
    (ht : tail = [] → ∀ o ∈ opts, o.isOther = false) (o : ImageOptions) :
    imageOptions rec (((opts.map ImageOption.source).filter fun o => !hasAnyPrefix o (env.config.list .ignoredImageParams)) ++ tail) o =
      imageOptions rec tail (opts.foldl applyOption o) := by
  induction opts generalizing o with
  | nil => rfl
  | cons x opts ih =>
    have hx := h x (by simp)
    have ih := ih (fun y hy => h y (by simp [hy])) (fun e y hy => ht e y (by simp [hy]))
    rw [List.map_cons, List.foldl_cons]
    cases x with
    | ignored text =>
      rw [List.filter_cons_of_neg, ih]
      · rfl
      · rw [keep_iff]; exact fun hn => hn hx
    | frame word more =>
      rw [List.filter_cons, if_pos (show (!hasAnyPrefix (ImageOption.frame word more).source (env.config.list .ignoredImageParams)) = true from keep_iff.mpr hx.2), List.cons_append, imageOptions, if_pos, ih]
      · rfl
      · simp only [hasAnyPrefix, imageNonInlineParameters, List.any_cons, List.any_nil, Bool.or_false, Bool.or_eq_true, hasPrefix_iff,
          ImageOption.source]
        rcases hx.1 with rfl | rfl
        · exact Or.inl (List.prefix_append _ _)
        · exact Or.inr (List.prefix_append _ _)
    | size w hh =>
      rw [List.filter_cons, if_pos (keep_iff.mpr hx.2.2), List.cons_append, imageOptions, if_neg (by rw [size_noFrame]; simp), if_pos,
        sizeOption_source w hh hx.1 hx.2.1, ih]
      rw [hasSuffix_iff]
      exact List.suffix_append _ _
    | other text =>
      rw [List.filter_cons, if_pos (show (!hasAnyPrefix (ImageOption.other text).source (env.config.list .ignoredImageParams)) = true from keep_iff.mpr hx.2), List.cons_append, imageOptions, if_neg (by show ¬ hasAnyPrefix text _ = true; rw [not_framePrefix hx.1]; simp),
        if_neg (by show ¬ hasSuffix text _ = true; rw [not_px hx.1]; simp), if_neg, ih]
      · rfl
      · have : tail ≠ [] := fun e => absurd (ht e (.other text) (by simp)) (by simp [ImageOption.isOther])
        simp [this]

theorem applied (opts : List ImageOption) (o : ImageOptions) :
    (opts.foldl applyOption o).block = (o.block || (opts.any ImageOption.isFrame || opts.any ImageOption.isLarge)) ∧
    (opts.foldl applyOption o).hasCaption = (o.hasCaption || opts.any ImageOption.isFrame) ∧
    (opts.foldl applyOption o).caption = o.caption ∧
    ((opts.foldl applyOption o).sizeX, (opts.foldl applyOption o).sizeY) =
      if opts.any (fun o => match o with | .size _ _ => true | _ => false) then lastSize opts else (o.sizeX, o.sizeY) := by
  induction opts generalizing o with
  | nil => simp
  | cons x opts ih =>
    obtain ⟨h1, h2, h3, h4⟩ := ih (applyOption o x)
    rw [List.foldl_cons, h1, h2, h3, h4]
    cases x with
    | frame word more => simp [applyOption, ImageOption.isFrame, ImageOption.isLarge, lastSize]
    | ignored t => simp [applyOption, ImageOption.isFrame, ImageOption.isLarge, lastSize]
    | other t => simp [applyOption, ImageOption.isFrame, ImageOption.isLarge, lastSize]
    | size w hh =>
      refine ⟨?_, by simp [applyOption, ImageOption.isFrame], by simp [applyOption], ?_⟩
      · simp only [applyOption, List.any_cons, ImageOption.isFrame, Bool.false_or]
        generalize (ImageOption.size w hh).isLarge = a
        generalize opts.any ImageOption.isFrame = b
        generalize opts.any ImageOption.isLarge = c
        cases o.block <;> cases a <;> cases b <;> cases c <;> rfl
      · rw [List.any_cons, Bool.true_or, if_pos rfl, lastSize]
        rfl

theorem lastSize_none (opts : List ImageOption) (h : opts.any (fun o => match o with | .size _ _ => true | _ => false) = false) : lastSize opts = (-1, -1) := by
  induction opts with
  | nil => rfl
  | cons x opts ih =>
    simp only [List.any_cons, Bool.or_eq_false_iff] at h
    cases x <;> simp_all [lastSize]

/-! ### File names -/

theorem replaceAll_space (s : Str) : replaceAll s b!" " b!"_" = s.map fun c => if c = 0x20 then 0x5F else c := by
  rw [replaceAll_singleton]
  induction s with
  | nil => rfl
  | cons c s ih =>
    rw [List.flatMap_cons, ih, List.map_cons]
    split <;> simp_all

theorem underscored_eq (s : Str) : underscored s = replaceAll (replaceAll s b!" " b!"_") b!"%20" b!"_" := by
  rw [replaceAll_space]
  unfold replaceAll
  induction s using underscored.induct with
  | case1 => rfl
  | case2 t ih =>
    rw [underscored, ih, List.map_cons, if_pos rfl, replaceAllGo, if_neg (by simp [List.isPrefixOf])]
  | case3 t ih =>
    rw [underscored, ih]
    simp [replaceAllGo, List.isPrefixOf]
  | case4 c t h1 h2 ih =>
    have hc : c ≠ 0x20 := fun e => h1 e
    rw [underscored, ih, List.map_cons, if_neg hc, replaceAllGo, if_neg]
    · intro hp
      rw [List.isPrefixOf_iff_prefix, List.cons_prefix_cons] at hp
      obtain ⟨rfl, hp⟩ := hp
      have hf : ∀ x : Byte, ∀ y ∈ b!"20", y = (if x = 0x20 then 0x5F else x) → x = y := by
        intro x y hy e
        split at e
        · subst e; exact absurd hy (by decide)
        · exact e.symm
      cases t with
      | nil => simp at hp
      | cons x t =>
        rw [List.map_cons, List.cons_prefix_cons] at hp
        cases t with
        | nil => simp at hp
        | cons y t =>
          rw [List.map_cons, List.cons_prefix_cons] at hp
          have e1 := hf x _ (by decide) hp.1
          have e2 := hf y _ (by decide) hp.2.1
          subst e1 e2
          exact h2 t rfl rfl
    · exact h1
    · exact h2

/-! ### One image -/

/-- The parts between the vertical bars. -/
def WikiImage.parts (i : WikiImage) : List Str := i.name :: (i.options.map ImageOption.source ++ i.caption.toList)

theorem join_bars (x : Str) (xs : List Str) : join b!"|" (x :: xs) = x ++ xs.flatMap fun y => b!"|" ++ y := by
  induction xs generalizing x with
  | nil => simp [join]
  | cons y ys ih =>
    rw [join_cons_of_ne_nil (by simp), ih, List.flatMap_cons]
    simp

theorem inner_parts (i : WikiImage) : i.inner = join b!"|" (WikiImage.parts i) := by
  rw [WikiImage.parts, join_bars, WikiImage.inner, List.flatMap_append, List.flatMap_map, List.append_assoc]
  cases i.caption <;> simp

theorem split_inner {env : ParserEnv} {i : WikiImage} (h : i.WellFormed env) (hcap : ∀ c, i.caption = some c → CaptionText env c) : split i.inner b!"|" = WikiImage.parts i := by
  rw [inner_parts]
  refine split_join_singleton (by simp [WikiImage.parts]) ?_
  intro p hp
  simp only [WikiImage.parts, List.mem_cons, List.mem_append, List.mem_map, Option.mem_toList] at hp
  rcases hp with rfl | ⟨o, ho, rfl⟩ | hp
  · exact fun hm => h.name.2 _ hm (by decide)
  · exact fun hm => (h.options o ho).2 _ hm (by decide)
  · exact (hcap p hp).2.2

theorem file_chars {env : ParserEnv} (hu : CreatesNoSeparators env.upperFirst) {i : WikiImage} (h : i.WellFormed env) :
    (0x3A : Byte) ∉ i.file env ∧ (0x7C : Byte) ∉ i.file env := by
  have hn : ∀ c ∈ b!":|", c ∉ i.file env := by
    intro c hc
    refine hu _ c (by revert hc; simp only [List.mem_cons, List.not_mem_nil, or_false]; tauto) ?_
    rw [underscored_eq]
    refine not_mem_replaceAll (by simp) (not_mem_replaceAll (by simp) (fun hm => h.name.2 c (mem_of_mem_trimSpace hm) (by revert hc; simp only [List.mem_cons, List.not_mem_nil, or_false]; tauto)) ?_) ?_
    · revert hc; simp only [List.mem_cons, List.not_mem_nil, or_false]; rintro (rfl | rfl) <;> decide
    · revert hc; simp only [List.mem_cons, List.not_mem_nil, or_false]; rintro (rfl | rfl) <;> decide
  exact ⟨hn _ (by decide), hn _ (by decide)⟩

theorem underscored_ne {s : Str} (h : s ≠ []) : underscored s ≠ [] := by
  unfold underscored
  split
  · exact absurd rfl h
  all_goals simp

theorem escape_image {env : ParserEnv} {i : WikiImage} (h : i.WellFormed env) (hcap : ∀ c, i.caption = some c → CaptionText env c) :
    escapeImages env i.inner = if i.Unwanted env then pure [] else (do
      addImage (b!"File:" ++ i.file env)
      pure (join b!"|" ((b!"File:" ++ i.file env) :: (i.options.map ImageOption.source ++ i.caption.toList)))) := by
  rw [escapeImages_eq env _ _ _ (split_inner h hcap), cut_single_none (fun hm => h.name.2 _ hm (by decide))]
  simp only [escapeNamed, ← underscored_eq, if_neg (underscored_ne h.name.1)]
  rfl

theorem imageKey_spec {env : ParserEnv} {rec : Rec} (hu : CreatesNoSeparators env.upperFirst)
    (hF : env.lower b!"File" ∈ env.config.list .filePrefixes) {i : WikiImage} (h : i.WellFormed env)
    (hcap : ∀ c, i.caption = some c → CaptionText env c) (hc : ∀ c, i.caption = some c → rec c = pure c) :
    imageKey env rec (join b!"|" ((b!"File:" ++ i.file env) :: (i.options.map ImageOption.source ++ i.caption.toList))) =
      newToken (i.token env).1 (i.token env).2 := by
  obtain ⟨hf1, hf2⟩ := file_chars hu h
  have hs : split (join b!"|" ((b!"File:" ++ i.file env) :: (i.options.map ImageOption.source ++ i.caption.toList))) b!"|" =
      (b!"File:" ++ i.file env) :: (i.options.map ImageOption.source ++ i.caption.toList) := by
    refine split_join_singleton (by simp) ?_
    intro p hp
    simp only [List.mem_cons, List.mem_append, List.mem_map, Option.mem_toList] at hp
    rcases hp with rfl | ⟨o, ho, rfl⟩ | hp
    · simp [hf2]
    · exact fun hm => (h.options o ho).2 _ hm (by decide)
    · exact (hcap p hp).2.2
  have hne : join b!"|" ((b!"File:" ++ i.file env) :: (i.options.map ImageOption.source ++ i.caption.toList)) ≠ [] := by
    rw [join_bars]; simp
  have hfirst : (splitN b!":" 2 (join b!"|" ((b!"File:" ++ i.file env) :: (i.options.map ImageOption.source ++ i.caption.toList)))).headD [] = b!"File" := by
    rw [join_bars]
    have := cut_single (c := (0x3A : Byte)) (a := b!"File") (i.file env ++ (i.options.map ImageOption.source ++ i.caption.toList).flatMap fun y => b!"|" ++ y) (by decide)
    have e : b!"File:" ++ i.file env ++ ((i.options.map ImageOption.source ++ i.caption.toList).flatMap fun y => b!"|" ++ y) =
      b!"File" ++ 0x3A :: (i.file env ++ (i.options.map ImageOption.source ++ i.caption.toList).flatMap fun y => b!"|" ++ y) := by simp
    rw [e]
    simp only [splitN, this, List.headD_cons]
  rw [imageKey, if_neg, imageToken]
  swap
  · rw [hfirst]
    rintro (h1 | h1)
    · exact hne h1
    · exact h1 hF
  rw [hs]
  have hcut : cut b!":" (b!"File:" ++ i.file env) = some (b!"File", i.file env) := cut_single (c := (0x3A : Byte)) (a := b!"File") _ (by decide)
  simp only [List.headD_cons, hcut]
  have hfilter : ((b!"File:" ++ i.file env) :: (i.options.map ImageOption.source ++ i.caption.toList)).filter
      (fun o => !hasAnyPrefix o (env.config.list .ignoredImageParams)) =
      (b!"File:" ++ i.file env) :: (((i.options.map ImageOption.source).filter fun o => !hasAnyPrefix o (env.config.list .ignoredImageParams)) ++ i.caption.toList) := by
    rw [List.filter_cons, if_pos (keep_iff.mpr h.file.2), List.filter_append]
    congr 2
    cases hcp : i.caption with
    | none => rfl
    | some c =>
      rw [Option.toList_some, List.filter_cons, if_pos (keep_iff.mpr (hcap c hcp).2.1)]
      rfl
  rw [hfilter, imageOptions, if_neg (by rw [not_framePrefix h.file.1]; simp), if_neg (by rw [not_px h.file.1]; simp), if_neg (by simp),
    imageOptions_sources env rec _ _ (fun o ho => (h.options o ho).1) (fun e o ho => h.last (by
      cases hcp : i.caption with
      | none => rfl
      | some c => rw [hcp] at e; cases e) o ho)]
  obtain ⟨a1, a2, a3, a4⟩ := applied i.options { block := false, hasCaption := false, caption := [], sizeX := -1, sizeY := -1 }
  generalize i.options.foldl applyOption { block := false, hasCaption := false, caption := [], sizeX := -1, sizeY := -1 } = o at a1 a2 a3 a4
  have a4' : (o.sizeX, o.sizeY) = lastSize i.options := by
    rw [a4]
    split
    · rfl
    · rename_i hn
      rw [lastSize_none _ (by simpa using hn)]
  obtain ⟨a5, a6⟩ := Prod.ext_iff.mp a4'
  simp only at a5 a6
  have hblock : o.block = i.block := by rw [a1]; rfl
  have hframed : o.hasCaption = i.framed := by rw [a2]; rfl
  have hfb : i.framed = true → i.block = true := fun h => by simp [WikiImage.block, h]
  have htok : ∀ o' : ImageOptions, o'.block = i.block → o'.hasCaption = i.framed → (i.framed = true → o'.caption = i.caption.getD []) → o'.sizeX = (lastSize i.options).1 →
      o'.sizeY = (lastSize i.options).2 → (if o'.block then b!"IMAGE" else b!"IMAGE_INLINE") = (i.token env).1 ∧
      (if o'.block then Token.image (i.file env) (if o'.hasCaption then o'.caption else []) o'.sizeX o'.sizeY else .inlineImage (i.file env) o'.sizeX o'.sizeY) = (i.token env).2 := by
    intro o' e1 e2 e3 e4 e5
    rw [e1, e2, e4, e5, WikiImage.token]
    cases hb : i.block with
    | true =>
      refine ⟨by simp, ?_⟩
      cases hf : i.framed with
      | true => simp [e3 hf]
      | false => simp
    | false => simp
  cases hcp : i.caption with
  | none =>
    rw [Option.toList_none, imageOptions, pure_bind]
    obtain ⟨e1, e2⟩ := htok o hblock hframed (by simp [a3, hcp]) a5 a6
    simp only [e1, e2]
    rfl
  | some c =>
    have hcc := hcap c hcp
    rw [Option.toList_some, imageOptions, if_neg (by rw [not_framePrefix hcc.1]; simp), if_neg (by rw [not_px hcc.1]; simp)]
    cases hb : o.block with
    | true =>
      rw [if_pos (by simp), hc c hcp, pure_bind, imageOptions, pure_bind]
      obtain ⟨e1, e2⟩ := htok { o with caption := c } hblock hframed (by simp [hcp]) a5 a6
      simp only [hb] at e1 e2
      simp only [e1, e2]
      rfl
    | false =>
      rw [if_neg (by simp), imageOptions, pure_bind]
      obtain ⟨e1, e2⟩ := htok o hblock hframed (fun hf => by rw [← hblock, hb] at hfb; exact absurd (hfb hf) (by simp)) a5 a6
      simp only [hb] at e1 e2
      simp only [hb, e1, e2]
      rfl

/-! ### The loop -/

theorem linkFree_append' {a b : Str} (ha : LinkFree a) (hb : LinkFree b) : LinkFree (a ++ b) := by
  intro h
  rw [List.append_assoc] at h
  obtain ⟨u, v, e⟩ := h
  rw [List.append_assoc] at e
  rcases List.append_eq_append_iff.mp e with ⟨w, e1, e2⟩ | ⟨w, e1, e2⟩
  · match w, e1, e2 with
    | [], _, e2 => exact hb ⟨[], v, by simpa using e2⟩
    | [x], e1, e2 =>
      simp only [List.cons_append, List.nil_append, List.cons.injEq] at e2
      exact ha ⟨u, [], by rw [e1, ← e2.1]; simp⟩
    | x :: y :: w, e1, e2 =>
      simp only [List.cons_append, List.nil_append, List.cons.injEq] at e2
      exact ha ⟨u, w ++ b!"[", by rw [e1, ← e2.1, ← e2.2.1]; simp⟩
  · exact hb ⟨w, v, by rw [e2]; simp⟩

theorem findLinkStart_free (t : Str) (h : LinkFree t) (i : Nat) : findLinkStart t i = none := by
  induction t generalizing i with
  | nil => rfl
  | cons c t ih =>
    have ht : LinkFree t := fun hi => h (hi.trans ⟨[c], [], by simp⟩)
    rw [findLinkStart, if_neg, ih ht]
    intro hp
    rw [hasPrefix_iff] at hp
    exact h (hp.isInfix.trans ⟨[], b!"[", by simp⟩)

theorem toColon_space {s : Str} (h : ∀ c ∈ s, c ∉ b!"]:") (t : Str) : toColon (s ++ 0x3A :: t) = some (s.length + 1) := by
  induction s with
  | nil => rfl
  | cons c s ih =>
    have hc := h c (by simp)
    rw [List.cons_append, toColon, if_neg (fun e => hc (by simp [e])), if_neg (fun e => hc (by simp [e])),
      ih (fun x hx => h x (by simp [hx]))]
    rfl

theorem findLinkStart_image {first : Str} (hf : LinkFree first) {space : Str} (hs : space ≠ [] ∧ ∀ c ∈ space, c ∉ b!"[]:") (t : Str) (i : Nat) :
    findLinkStart (first ++ (b!"[[" ++ space ++ b!":" ++ t)) i = some (i + first.length, i + first.length + 3 + space.length) := by
  induction first generalizing i with
  | nil =>
    obtain ⟨c, s, rfl⟩ := List.exists_cons_of_ne_nil hs.1
    have hc := hs.2 c (by simp)
    have e : [] ++ (b!"[[" ++ (c :: s) ++ b!":" ++ t) = 0x5B :: 0x5B :: c :: (s ++ 0x3A :: t) := by simp
    rw [e, findLinkStart, if_pos (by simp [hasPrefix])]
    simp only [List.drop_succ_cons, List.drop_zero]
    rw [if_neg (fun e => hc (by simp [e])), toColon_space (fun x hx hm => hs.2 x (by simp [hx]) (by revert hm; simp only [List.mem_cons, List.not_mem_nil, or_false]; tauto))]
    simp only [List.length_nil, List.length_cons]
    congr 2
  | cons c f ih =>
    have ht : LinkFree f := fun hi => hf (hi.trans ⟨[c], [], by simp⟩)
    rw [List.cons_append, findLinkStart, if_neg, ih ht]
    · simp only [List.length_cons]
      congr 2 <;> omega
    · intro hp
      rw [hasPrefix_iff] at hp
      have hp' : b!"[[" <+: (c :: f) ++ b!"[" := by
        rw [List.cons_append] at hp ⊢
        rw [List.cons_prefix_cons] at hp ⊢
        refine ⟨hp.1, ?_⟩
        cases f with
        | nil => simp
        | cons d f => rw [List.cons_append, List.cons_prefix_cons] at hp ⊢; exact ⟨hp.2.1, by simp⟩
      exact hf hp'.isInfix

theorem close_free {inner : Str} (h : ∀ c ∈ inner, c ∉ b!"[]") (t : Str) (i k : Nat) :
    closeLoop false b!"[" b!"]" (inner ++ t) 0 i k = closeLoop false b!"[" b!"]" t 0 (i + inner.length) k := by
  induction inner generalizing i with
  | nil => simp
  | cons c s ih =>
    have hc := h c (by simp)
    rw [List.cons_append, close_other _ _ _ (fun e => hc (by simp [e])) (fun e => hc (by simp [e])), ih (fun x hx => h x (by simp [hx])), List.length_cons]
    congr 1
    omega

theorem front_free {env : ParserEnv} {i : WikiImage} (h : i.WellFormed env) : ∀ c ∈ WikiImage.front i, c ∉ b!"[]" := by
  intro c hc hm
  rw [WikiImage.front, List.mem_append, List.mem_flatMap] at hc
  rcases hc with hc | ⟨o, ho, hc⟩
  · exact h.name.2 c hc (by revert hm; simp only [List.mem_cons, List.not_mem_nil, or_false]; tauto)
  · rw [List.mem_append] at hc
    rcases hc with hc | hc
    · rw [List.mem_singleton.mp hc] at hm
      exact absurd hm (by decide)
    · exact (h.options o ho).2 c hc (by revert hm; simp only [List.mem_cons, List.not_mem_nil, or_false]; tauto)

theorem close_inner {env : ParserEnv} {rec : Rec} {i : WikiImage} (h : i.WellFormed env) (ht : i.Tokenizable env rec) (t : Str) (n : Nat) :
    closeLoop false b!"[" b!"]" (i.inner ++ b!"]]" ++ t) 0 n 0 = some (n + i.inner.length) := by
  have e : i.inner = WikiImage.front i ++ (match i.caption with | none => [] | some c => b!"|" ++ c) := rfl
  rw [WikiImage.Tokenizable] at ht
  cases hc : i.caption with
  | none =>
    rw [hc] at e
    rw [e, List.append_nil, List.append_assoc, close_free (front_free h)]
    exact close_close _ _ _
  | some c =>
    rw [hc] at e ht
    obtain ⟨⟨d, hd, rfl⟩, -⟩ := ht
    rw [e]
    simp only [List.append_assoc]
    rw [close_free (front_free h), List.cons_append, List.nil_append, close_other _ _ _ (by decide) (by decide), close_text d hd, List.cons_append, close_close, if_pos rfl]
    simp only [List.length_append, List.length_cons, List.length_nil]
    congr 1
    omega

theorem placedImage_key {α : Type} (env : ParserEnv) (i : WikiImage) (f g : Str → TokM α) (h : ∀ key, (0x5B : Byte) ∉ key → f key = g key) :
    (placedImage env i >>= f) = placedImage env i >>= g := by
  rw [placedImage]
  split
  · rw [pure_bind, pure_bind, h [] (by simp)]
  · funext s
    simp only [bind_assoc, newToken, pure_bind]
    have hk : ∀ n, f (tokenKey (i.token env).1 n) = g (tokenKey (i.token env).1 n) := by
      intro n
      refine h _ ?_
      have hd : (0x5B : Byte) ∉ decimal n := fun hm => by
        have := decimal_digits n _ hm
        revert this; decide
      rw [WikiImage.token, tokenKey]
      split <;> simp [hd]
    show f (tokenKey (i.token env).1 _) _ = g (tokenKey (i.token env).1 _) _
    rw [hk]

theorem bind_congr_ok {α β : Type} {m : TokM α} {f g : α → TokM β} (h : ∀ s a s', m s = some (.ok (a, s')) → f a = g a) :
    (m >>= f) = m >>= g := by
  funext s
  rw [TokM.bind_eq, TokM.bind_eq]
  cases hm : m s with
  | none => rfl
  | some r =>
    cases r with
    | ok x => simp only [h s x.1 x.2 hm]
    | _ => rfl

theorem wellFormed_caption {env : ParserEnv} {i : WikiImage} (h : i.WellFormed env) (c : Str) :
    ({ i with caption := some c } : WikiImage).WellFormed env := ⟨h.space, h.name, h.file, h.options, fun e => by cases e⟩

theorem place_image {env : ParserEnv} {rec : Rec} (hu : CreatesNoSeparators env.upperFirst)
    (hF : env.lower b!"File" ∈ env.config.list .filePrefixes) {i : WikiImage} (h : i.WellFormed env)
    (hcap : ∀ c, i.caption = some c → CaptionText env c) (hc : ∀ c, i.caption = some c → rec c = pure c) :
    (escapeImages env i.inner >>= imageKey env rec) = placedImage env i := by
  rw [escape_image h hcap, placedImage]
  split
  · rw [pure_bind, imageKey, if_pos (.inl rfl)]
  · rw [bind_assoc]
    simp only [pure_bind, imageKey_spec hu hF h hcap hc]

theorem tokenize_image {env : ParserEnv} {rec : Rec} (hu : CreatesNoSeparators env.upperFirst)
    (hF : env.lower b!"File" ∈ env.config.list .filePrefixes) {i : WikiImage} (h : i.WellFormed env) (ht : i.Tokenizable env rec) :
    (do let x ← rec i.inner; let y ← escapeImages env x; imageKey env rec y) = tokenizedImage env rec i := by
  rw [WikiImage.Tokenizable] at ht
  rw [tokenizedImage]
  cases hc : i.caption with
  | none =>
    rw [hc] at ht
    simp only at ht ⊢
    rw [ht, pure_bind]
    exact place_image hu hF h (by simp [hc]) (by simp [hc])
  | some c =>
    rw [hc] at ht
    obtain ⟨-, h1, h2⟩ := ht
    simp only
    rw [h1, bind_assoc]
    refine bind_congr_ok fun s c' s' hr => ?_
    obtain ⟨h3, h4⟩ := h2 s c' s' hr
    rw [pure_bind]
    exact place_image hu hF (wellFormed_caption h c') (by rintro _ ⟨⟩; exact h3) (by rintro _ ⟨⟩; exact h4)

theorem tokenizedImage_key {α : Type} (env : ParserEnv) (rec : Rec) (i : WikiImage) (f g : Str → TokM α) (h : ∀ key, (0x5B : Byte) ∉ key → f key = g key) :
    (tokenizedImage env rec i >>= f) = tokenizedImage env rec i >>= g := by
  rw [tokenizedImage]
  split
  · exact placedImage_key env _ f g h
  · rw [bind_assoc, bind_assoc]
    congr 1
    funext c'
    exact placedImage_key env _ f g h

theorem imageLoop_images {env : ParserEnv} {rec : Rec} (hu : CreatesNoSeparators env.upperFirst)
    (hF : env.lower b!"File" ∈ env.config.list .filePrefixes) (images : List (WikiImage × Str))
    (h : ∀ x ∈ images, x.1.WellFormed env ∧ x.1.Tokenizable env rec ∧ LinkFree x.2) (fuel : Nat) (hfuel : images.length < fuel) (first : Str) (hf : LinkFree first) :
    imageLoop env rec fuel (first ++ imagesText images) = (do
      let r ← tokenizedImages env rec images
      pure (first ++ r)) := by
  induction images generalizing fuel first with
  | nil =>
    obtain ⟨f, rfl⟩ := Nat.exists_eq_add_of_le' (show 1 ≤ fuel by omega)
    rw [imagesText, List.append_nil, imageLoop, findLinkStart_free _ hf, tokenizedImages, pure_bind, List.append_nil]
  | cons x rest ih =>
    obtain ⟨i, after⟩ := x
    obtain ⟨hw, ht, ha⟩ := h (i, after) (by simp)
    obtain ⟨f, rfl⟩ := Nat.exists_eq_add_of_le' (show 1 ≤ fuel by omega)
    simp only at hw ht ha
    have hstart := findLinkStart_image hf hw.space (i.inner ++ b!"]]" ++ (after ++ imagesText rest)) 0
    have econt : first ++ imagesText ((i, after) :: rest) = first ++ (b!"[[" ++ i.space ++ b!":" ++ (i.inner ++ b!"]]" ++ (after ++ imagesText rest))) := by
      simp [imagesText, WikiImage.source]
    have efront : first ++ (b!"[[" ++ i.space ++ b!":" ++ (i.inner ++ b!"]]" ++ (after ++ imagesText rest))) =
        (first ++ (b!"[[" ++ i.space ++ b!":")) ++ (i.inner ++ b!"]]" ++ (after ++ imagesText rest)) := by simp
    have elen : 0 + first.length + 3 + i.space.length = (first ++ (b!"[[" ++ i.space ++ b!":")).length := by simp; omega
    rw [econt, imageLoop, hstart]
    simp only
    have hclose : findClose (first ++ (b!"[[" ++ i.space ++ b!":" ++ (i.inner ++ b!"]]" ++ (after ++ imagesText rest))))
        (0 + first.length + 3 + i.space.length) b!"[" b!"]" = some (0 + first.length + 3 + i.space.length + i.inner.length) := by
      rw [findClose, findCloseWith, efront, elen, List.drop_left, close_inner hw ht]
    rw [hclose]
    simp only
    have hsub : ((first ++ (b!"[[" ++ i.space ++ b!":" ++ (i.inner ++ b!"]]" ++ (after ++ imagesText rest)))).take
        (0 + first.length + 3 + i.space.length + i.inner.length)).drop (0 + first.length + 3 + i.space.length) = i.inner := by
      rw [efront, elen, List.drop_take, List.drop_left, Nat.add_sub_cancel_left, List.append_assoc, List.take_left]
    have htake : (first ++ (b!"[[" ++ i.space ++ b!":" ++ (i.inner ++ b!"]]" ++ (after ++ imagesText rest)))).take (0 + first.length) = first := by
      rw [Nat.zero_add, List.take_left]
    have hdrop : (first ++ (b!"[[" ++ i.space ++ b!":" ++ (i.inner ++ b!"]]" ++ (after ++ imagesText rest)))).drop
        (0 + first.length + 3 + i.space.length + i.inner.length + 2) = after ++ imagesText rest := by
      rw [efront, elen, show (first ++ (b!"[[" ++ i.space ++ b!":")).length + i.inner.length + 2 =
          (first ++ (b!"[[" ++ i.space ++ b!":") ++ (i.inner ++ b!"]]")).length by simp; omega,
        ← List.append_assoc (first ++ (b!"[[" ++ i.space ++ b!":")) (i.inner ++ b!"]]") (after ++ imagesText rest), List.drop_left]
    rw [hsub, htake, hdrop]
    have hlen : 0 + first.length + 3 + i.space.length + i.inner.length + 2 ≤
        (first ++ (b!"[[" ++ i.space ++ b!":" ++ (i.inner ++ b!"]]" ++ (after ++ imagesText rest)))).length := by
      simp; omega
    simp only [if_pos hlen]
    have e := congrArg (fun m : TokM Str => m >>= fun token => imageLoop env rec f (first ++ token ++ (after ++ imagesText rest))) (tokenize_image hu hF hw ht)
    simp only [bind_assoc] at e
    rw [e, tokenizedImages, bind_assoc]
    refine tokenizedImage_key env rec i _ _ fun key hk => ?_
    have hn : first ++ key ++ (after ++ imagesText rest) = (first ++ key ++ after) ++ imagesText rest := by simp
    rw [hn, ih (fun x hx => h x (by simp [hx])) f (by simp at hfuel; omega) _
      (linkFree_append' (linkFree_append' hf (b := key) (fun hi => absurd (infix_behind (p := b!"[") hk hi) (by decide))) ha), bind_assoc]
    simp only [pure_bind, List.append_assoc]

end Verif.Model
