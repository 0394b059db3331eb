import Verif.Lemmas.HaltLinks

/-!
# Termination of the tokenizer: galleries, image maps and images
-/

namespace Verif.Lemmas
open Verif.Go Verif.Model Verif.Spec
open scoped List

variable {rec : Nat → Rec} {M : Nat ×ₗ Nat} {env : ParserEnv}

theorem size_bars (l : List Str) : lts (join b!"|" l) = lts l.flatten ∧ wt (join b!"|" l) = wt l.flatten := by
  match l with
  | [] => exact ⟨rfl, rfl⟩
  | [p] => simp [join]
  | p :: q :: r =>
    have ih := size_bars (q :: r)
    have hn : lts b!"|" = 0 ∧ wt b!"|" = 0 := by decide
    rw [join, List.flatten_cons]
    simp only [lts_append, wt_append]
    omega

theorem upperFirst_fits (hu : CreatesNoMarkup env.upperFirst) (s : Str) : Fits (env.upperFirst s) s := by
  refine ⟨hu s _ (by decide), ?_⟩
  have hsum : ∀ (l : List Byte), l.Nodup → ∀ t : Str, t.countP (fun c => decide (c ∈ l)) = (l.map fun c => t.count c).sum := by
    intro l hl t
    induction t with
    | nil => simp
    | cons a t ih =>
      rw [List.countP_cons, ih]
      have : ∀ l : List Byte, l.Nodup → (l.map fun c => (a :: t).count c).sum = (l.map fun c => t.count c).sum + if a ∈ l then 1 else 0 := by
        intro l hl
        induction l with
        | nil => simp
        | cons c l ih =>
          have hc := (List.nodup_cons.mp hl).1
          rw [List.map_cons, List.sum_cons, ih (List.nodup_cons.mp hl).2, List.map_cons, List.sum_cons, List.count_cons]
          by_cases e : a = c
          · subst e; simp [hc]; omega
          · simp [e]; split <;> omega
      rw [this l hl]
      simp
  have e : ∀ t : Str, wt t = (b!"[{=*#;:'".map fun c => t.count c).sum := fun t => hsum b!"[{=*#;:'" (by decide) t
  rw [e, e]
  have h : ∀ c ∈ b!"[{=*#;:'", (env.upperFirst s).count c ≤ s.count c := fun c hc => hu s c (List.mem_cons_of_mem _ hc)
  generalize b!"[{=*#;:'" = l at h
  induction l with
  | nil => simp
  | cons c l ih =>
    rw [List.map_cons, List.sum_cons, List.map_cons, List.sum_cons]
    have := h c (by simp)
    have := ih fun c hc => h c (by simp [hc])
    omega

theorem escapeImages_halts (hu : CreatesNoMarkup env.upperFirst) (content : Str) :
    Halts (fun _ _ => escapeImages env content) fun r => lts r ≤ lts content ∧ wt r ≤ wt content + 1 := by
  have hcontent : lts content = lts (split content b!"|").flatten ∧ wt content = wt (split content b!"|").flatten := by
    have := size_bars (split content b!"|")
    rwa [join_split_self content (by decide)] at this
  have hne := split_ne_nil content (sep := b!"|") (by decide)
  unfold escapeImages
  simp only
  generalize split content b!"|" = segments at *
  cases segments with
  | nil => exact absurd rfl hne
  | cons first tail =>
    simp only [List.headD_cons, List.tail_cons]
    refine Halts.ite (fun _ => Halts.pure ⟨Nat.zero_le _, Nat.zero_le _⟩) fun _ => Halts.ite (fun _ => Halts.panic) fun _ => ?_
    refine Halts.bind (Halts.addImage (P := fun _ => True) _ trivial) fun _ _ => Halts.pure ?_
    have hb := size_bars
    rw [(size_bars _).1, (size_bars _).2, hcontent.1, hcontent.2]
    simp only [List.flatten_cons, lts_append, wt_append]
    have hname : ∀ f : Str, Fits (env.upperFirst (replaceAll (replaceAll (trimSpace f) b!" " b!"_") b!"%20" b!"_")) f := fun f =>
      (upperFirst_fits hu _).trans ((fits_replaceAll _ (by decide) (by decide)).trans ((fits_replaceAll _ (by decide) (by decide)).trans
        (Fits.of_sublist (trimSpace_sublist f))))
    have hcolon : lts b!":" = 0 ∧ wt b!":" = 1 := by decide
    cases hc : cut b!":" first with
    | none =>
      have h := hname first
      have h1 := h.1; have h2 := h.2
      have hfile : lts b!"File" = 0 ∧ wt b!"File" = 0 := by decide
      simp only
      omega
    | some p =>
      obtain ⟨p, rest⟩ := p
      have h := hname rest
      have h1 := h.1; have h2 := h.2
      have h3 := congrArg lts (cut_eq_some hc)
      have h4 := congrArg wt (cut_eq_some hc)
      simp only [lts_append, wt_append] at h3 h4
      simp only
      omega

theorem foldPrefix_lt {pat s r : Str} (h : foldPrefix (0x3C :: pat) s = some r) : ∃ t, s = 0x3C :: t ∧ r <+ t := by
  have hsub : ∀ (pat s r : Str), foldPrefix pat s = some r → r <+ s := by
    intro pat
    induction pat with
    | nil => intro s r h; rw [foldPrefix] at h; cases h; exact .refl _
    | cons p ps ih =>
      intro s r h
      cases s with
      | nil => rw [foldPrefix] at h; cases h
      | cons b s =>
        rw [foldPrefix.eq_def] at h
        simp only at h
        split at h
        · exact (ih _ _ h).cons _
        · split at h
          · split at h
            · split at h
              · exact ((ih _ _ h).cons _).cons _
              · cases h
            · cases h
          · cases h
  cases s with
  | nil => rw [foldPrefix] at h; cases h
  | cons b s =>
    rw [foldPrefix.eq_def] at h
    simp only at h
    split at h
    · rename_i hb
      rw [lower_eq_lt hb]
      exact ⟨s, rfl, hsub _ _ _ h⟩
    · rw [if_neg (fun hc => absurd hc.1 (by decide))] at h
      cases h

theorem matchTag_lts {pat s r : Str} (h : matchTag (0x3C :: pat) s = some r) : lts r < lts s := by
  unfold matchTag at h
  split at h
  · cases h
  · rename_i rest hr
    obtain ⟨t, rfl, hs⟩ := foldPrefix_lt hr
    split at h
    · cases h
    · rename_i attributes after hc
      split at h
      · cases h
      · cases h
        have h1 := (Fits.of_sublist hs).1
        have h2 := congrArg lts (cut_eq_some hc)
        simp only [lts_append] at h2
        rw [lts_cons, if_pos rfl]
        omega

theorem same_lt {n : Nat} {s y : Str} (h : equalsIgnoreCase (s.take (n + 1)) (0x3C :: y) = true) : ∃ t, s = 0x3C :: t := by
  have := tag_at (content := s) (i := 0) (by simpa using h)
  cases s with
  | nil => simp at this
  | cons c t =>
    simp at this
    exact ⟨t, by rw [this]⟩

theorem same_lt' {s y : Str} (h : equalsIgnoreCase s (0x3C :: y) = true) : ∃ t, s = 0x3C :: t :=
  same_lt (n := s.length) (y := y) (by rw [List.take_of_length_le (by omega)]; exact h)

theorem removeAll_sublist (old : Str) : ∀ (s : Str) (skip : Nat), removeAllIgnoreCase old s skip <+ s
  | [], _ => by rw [removeAllIgnoreCase]
  | _ :: t, skip + 1 => by rw [removeAllIgnoreCase]; exact (removeAll_sublist old t skip).cons _
  | c :: t, 0 => by
    rw [removeAllIgnoreCase]
    split
    · exact (removeAll_sublist old t _).cons _
    · exact (removeAll_sublist old t 0).cons_cons _

theorem removeAll_lts {n : Nat} {old : Str} (hn : (0x3C :: old).length = n + 1) (w s : Str)
    (h : equalsIgnoreCase (s.take (n + 1)) (0x3C :: old) = true) :
    lts (removeAllIgnoreCase (0x3C :: old) (w ++ s) 0) < lts (w ++ s) := by
  induction w with
  | nil =>
    obtain ⟨t, rfl⟩ := same_lt h
    rw [List.nil_append, removeAllIgnoreCase, hn, if_pos h, lts_cons, if_pos rfl]
    have := (Fits.of_sublist (removeAll_sublist (0x3C :: old) t (n + 1 - 1))).1
    omega
  | cons c w ih =>
    rw [List.cons_append, removeAllIgnoreCase]
    split
    · rename_i hc
      rw [hn] at hc
      obtain ⟨t, ht⟩ := same_lt hc
      cases ht
      have := (Fits.of_sublist (removeAll_sublist (0x3C :: old) (w ++ s) ((0x3C :: old).length - 1))).1
      rw [lts_cons, if_pos rfl]
      omega
    · rw [lts_cons, lts_cons]; omega

/-! ### Galleries -/

theorem galleryImage_halts (hu : CreatesNoMarkup env.upperFirst) (line : Str) :
    Halts (fun _ _ => galleryImage env line) fun r => lts r ≤ lts line := by
  unfold galleryImage
  simp only
  have hl : lts line = lts (split line b!"|").flatten := by
    have := (size_bars (split line b!"|")).1
    rwa [join_split_self line (by decide)] at this
  refine Halts.bind (escapeImages_halts hu _) fun r hr => Halts.pure ?_
  have h1 : lts r ≤ lts line := by
    refine hr.1.trans ?_
    split
    · exact Nat.le_refl _
    · rw [(size_bars _).1, hl]
      have hm : lts b!"mini" = 0 := by decide
      cases split line b!"|" with
      | nil => decide
      | cons a l => simp only [List.headD_cons, List.tail_cons, List.flatten_cons, lts_append, hm]; omega
  have hb : lts b!"[[" = 0 ∧ lts b!"]]" = 0 := by decide
  split
  · simp only [lts_append]; omega
  · exact h1

/-- Lines are unchanged or have fewer tags. -/
def TagStep (within : Bool) (ls ls' : List Str) : Prop :=
  (within = false ∧ ls' = ls) ∨ lts ls'.flatten < lts ls.flatten ∨ (within = true ∧ lts ls'.flatten ≤ lts ls.flatten)

theorem TagStep.le {w : Bool} {ls ls' : List Str} (h : TagStep w ls ls') : lts ls'.flatten ≤ lts ls.flatten := by
  rcases h with ⟨_, rfl⟩ | h | h
  · exact Nat.le_refl _
  · omega
  · exact h.2

theorem galleryLines_halts (hu : CreatesNoMarkup env.upperFirst) (lines : List Str) : ∀ within : Bool,
    Halts (fun _ _ => galleryLines env lines within) (TagStep within lines) := by
  induction lines with
  | nil =>
    intro within
    refine Halts.pure ?_
    cases within
    · exact .inl ⟨rfl, rfl⟩
    · exact .inr (.inr ⟨rfl, Nat.le_refl _⟩)
  | cons line rest ih =>
    intro within
    have htrim := (Fits.of_sublist (trimSpace_sublist line)).1
    simp only [galleryLines]
    refine Halts.ite (fun hclose => ?_) fun _ => ?_
    · obtain ⟨t, ht⟩ := same_lt (n := 9) hclose
      have hlt : 0 < lts line := by
        rw [ht, lts_cons, if_pos rfl] at htrim
        omega
      refine Halts.ite (fun _ => ?_) fun _ => ?_
      · refine (ih false).mono fun r hr => .inr (.inl ?_)
        have := hr.le
        rw [List.flatten_cons, lts_append]
        omega
      · refine Halts.bind (ih false) fun r hr => Halts.pure (.inr (.inl ?_))
        have := hr.le
        obtain ⟨-, -, l, r', -, -, e⟩ := trimSpace_spec line
        have hr : lts (removeAllIgnoreCase b!"</gallery>" line 0) < lts line := by
          rw [e, List.append_assoc]
          refine removeAll_lts (n := 9) (by decide) l (trimSpace line ++ r') ?_
          have hlen : 10 ≤ (trimSpace line).length := by
            by_contra hlen
            unfold equalsIgnoreCase at hclose
            have := congrArg List.length (beq_iff_eq.mp hclose)
            simp at this
            omega
          rw [List.take_append_of_le_length hlen]
          exact hclose
        simp only [List.flatten_cons, lts_append]
        omega
    · have inside : ∀ trimmed : Str, lts trimmed ≤ lts line → Halts (fun _ _ =>
          if trimmed = [] then galleryLines env rest true
          else do
            let line ← galleryImage env trimmed
            let rest ← galleryLines env rest true
            pure (line :: rest)) fun r => lts r.flatten ≤ lts trimmed + lts rest.flatten := by
        intro trimmed htr
        refine Halts.ite (fun _ => ?_) fun _ => ?_
        · exact (ih true).mono fun r hr => by have := hr.le; omega
        · refine Halts.bind (galleryImage_halts hu trimmed) fun l hl => ?_
          refine Halts.bind (ih true) fun r hr => Halts.pure ?_
          have := hr.le
          simp only [List.flatten_cons, lts_append]
          omega
      cases hg : matchGallery (trimSpace line) with
      | some after =>
        have hlt := matchTag_lts hg
        simp only [if_true]
        refine (inside after (by omega)).mono fun r hr => .inr (.inl ?_)
        simp only [List.flatten_cons, lts_append]
        omega
      | none =>
        simp only
        cases within with
        | true =>
          simp only [if_true]
          refine (inside _ htrim).mono fun r hr => .inr (.inr ⟨rfl, ?_⟩)
          simp only [List.flatten_cons, lts_append]
          omega
        | false =>
          simp only [Bool.false_eq_true, if_false]
          refine Halts.bind (ih false) fun r hr => Halts.pure ?_
          rcases hr with ⟨_, rfl⟩ | h | ⟨h, _⟩
          · exact .inl ⟨rfl, rfl⟩
          · right; left; simp only [List.flatten_cons, lts_append]; omega
          · cases h

theorem TagStep.step {content : Str} {ls : List Str} (h : TagStep false (split content b!"\n") ls) : Step content (join b!"\n" ls) := by
  rcases h with ⟨_, rfl⟩ | h | ⟨h, _⟩
  · exact .inl (join_split_self _ (by decide))
  · have := size_split content
    have := size_lines ls
    exact .of_lts (by omega)
  · cases h

theorem parseGalleries_halts (hu : CreatesNoMarkup env.upperFirst) (content : Str) :
    Halts (fun _ _ => parseGalleries env content) (Step content) := by
  unfold parseGalleries
  exact Halts.bind (galleryLines_halts hu _ false) fun ls hls => Halts.pure hls.step

/-! ### Image maps -/

theorem imageMapLines_halts (hu : CreatesNoMarkup env.upperFirst) (k : Nat) : ∀ (lines : List Str), lines.length = k → ∀ within : Bool,
    Halts (fun _ _ => imageMapLines env lines within) (TagStep within lines) := by
  induction k using Nat.strongRecOn with
  | _ k ih =>
    intro lines hk within
    cases lines with
    | nil =>
      simp only [imageMapLines]
      refine Halts.pure ?_
      cases within
      · exact .inl ⟨rfl, rfl⟩
      · exact .inr (.inr ⟨rfl, Nat.le_refl _⟩)
    | cons line rest =>
      simp only [List.length_cons] at hk
      have ih' := ih rest.length (by omega) rest rfl
      rw [imageMapLines.eq_def]
      simp only
      refine Halts.ite (fun h => ?_) fun _ => ?_
      · obtain ⟨t, rfl⟩ := same_lt' h
        refine (ih' false).mono fun r hr => .inr (.inl ?_)
        have := hr.le
        simp only [List.flatten_cons, lts_append, lts_cons, if_pos]
        omega
      · cases within with
        | true =>
          refine (ih' true).mono fun r hr => .inr (.inr ⟨rfl, ?_⟩)
          have := hr.le
          simp only [List.flatten_cons, lts_append]
          omega
        | false =>
          have hb : lts b!"[[" = 0 ∧ lts b!"]]" = 0 := by decide
          refine Halts.ite (fun h => absurd h (by decide)) fun _ => ?_
          cases hi : matchImagemap line with
          | none =>
            refine Halts.bind (ih' false) fun r hr => Halts.pure ?_
            rcases hr with ⟨_, rfl⟩ | h | ⟨h, _⟩
            · exact .inl ⟨rfl, rfl⟩
            · right; left; simp only [List.flatten_cons, lts_append]; omega
            · cases h
          | some after =>
            have hlt := matchTag_lts hi
            have htrim := (Fits.of_sublist (trimSpace_sublist after)).1
            simp only
            refine Halts.ite (fun _ => ?_) fun _ => ?_
            · cases rest with
              | nil => exact Halts.panic
              | cons next rest =>
                simp only [List.length_cons] at hk
                refine Halts.bind (escapeImages_halts hu next) fun image himg => ?_
                refine Halts.bind (ih rest.length (by omega) rest rfl true) fun r hr => Halts.pure (.inr (.inl ?_))
                have := hr.le
                simp only [List.flatten_cons, lts_append]
                omega
            · refine Halts.bind (escapeImages_halts hu _) fun image himg => ?_
              refine Halts.bind (ih' true) fun r hr => Halts.pure (.inr (.inl ?_))
              have := hr.le
              simp only [List.flatten_cons, lts_append]
              omega

theorem parseImageMaps_halts (hu : CreatesNoMarkup env.upperFirst) (content : Str) :
    Halts (fun _ _ => parseImageMaps env content) (Step content) := by
  unfold parseImageMaps
  exact Halts.bind (imageMapLines_halts hu _ _ rfl false) fun ls hls => Halts.pure hls.step

/-! ### Images -/

theorem toColon_spec (s : Str) {n : Nat} (h : toColon s = some n) : 0 < n ∧ s[n - 1]? = some 0x3A := by
  induction s generalizing n with
  | nil => cases h
  | cons c t ih =>
    rw [toColon] at h
    split at h
    · rename_i hc; cases h; simp [hc]
    · split at h
      · cases h
      · obtain ⟨k, hk, rfl⟩ := Option.map_eq_some_iff.mp h
        obtain ⟨h1, h2⟩ := ih hk
        obtain ⟨j, rfl⟩ := Nat.exists_eq_add_of_le' h1
        exact ⟨by omega, by simpa using h2⟩

theorem findLinkStart_spec (s : Str) : ∀ (i : Nat) {a b : Nat}, findLinkStart s i = some (a, b) → ∃ pre mid post,
    s = pre ++ b!"[[" ++ mid ++ b!":" ++ post ∧ a = i + pre.length ∧ b = i + pre.length + 2 + mid.length + 1 := by
  induction s with
  | nil => intro i a b h; cases h
  | cons c t ih =>
    intro i a b h
    have next : findLinkStart t (i + 1) = some (a, b) → ∃ pre mid post, c :: t = pre ++ b!"[[" ++ mid ++ b!":" ++ post ∧
        a = i + pre.length ∧ b = i + pre.length + 2 + mid.length + 1 := by
      intro h
      obtain ⟨pre, mid, post, e1, e2, e3⟩ := ih _ h
      refine ⟨c :: pre, mid, post, by rw [e1]; simp, ?_, ?_⟩ <;> simp only [List.length_cons] <;> omega
    rw [findLinkStart] at h
    split at h
    · rename_i hp
      obtain ⟨r, hr⟩ := hasPrefix_iff.mp hp
      have hc : c = 0x5B ∧ t = 0x5B :: r := by
        simp only [List.cons_append, List.nil_append, List.cons.injEq] at hr
        exact ⟨hr.1.symm, hr.2.symm⟩
      obtain ⟨rfl, rfl⟩ := hc
      simp only [List.drop_succ_cons, List.drop_zero] at h
      cases r with
      | nil => exact next h
      | cons d rest =>
        simp only at h
        split at h
        · exact next h
        · split at h
          · rename_i n hn
            obtain ⟨h1, h2⟩ := toColon_spec rest hn
            obtain ⟨hi, hc⟩ := List.getElem?_eq_some_iff.mp h2
            cases h
            refine ⟨[], d :: rest.take (n - 1), rest.drop (n - 1 + 1), ?_, rfl, ?_⟩
            · have : rest = rest.take (n - 1) ++ 0x3A :: rest.drop (n - 1 + 1) := by
                conv_lhs => rw [← List.take_append_drop (n - 1) rest, List.drop_eq_getElem_cons hi, hc]
              conv_lhs => rw [this]
              simp
            · simp only [List.length_nil, List.length_cons, List.length_take]
              omega
          · exact next h
    · exact next h

theorem imageOptions_halts (hrec : RecHalts rec M) (options : List Str) : ∀ (o : ImageOptions), (∀ x ∈ options, size x < M) →
    Halts (fun n _ => imageOptions (rec n) options o) fun _ => True := by
  induction options with
  | nil => intro o _; exact Halts.pure trivial
  | cons x rest ih =>
    intro o h
    have h' : ∀ x ∈ rest, size x < M := fun x hx => h x (by simp [hx])
    simp only [imageOptions]
    refine Halts.ite (fun _ => ih _ h') fun _ => Halts.ite (fun _ => ih _ h') fun _ => Halts.ite (fun _ => ?_) fun _ => ih _ h'
    exact Halts.bind (hrec _ (h x (by simp))) fun _ _ => ih _ h'

theorem imageKey_halts (hrec : RecHalts rec M) (content : Str) (hm : size content < M) :
    Halts (fun n _ => imageKey env (rec n) content) Bare := by
  unfold imageKey
  refine Halts.ite (fun _ => Halts.pure bare_nil) fun _ => ?_
  unfold imageToken
  simp only
  cases cut b!":" ((split content b!"|").headD []) with
  | none => exact Halts.panic
  | some p =>
    refine Halts.bind (imageOptions_halts hrec _ _ fun x hx => ?_) fun o _ => ?_
    · have := split_piece (by decide) (List.mem_of_mem_filter hx)
      exact lt_of_le_of_lt (Fits.of_sublist this).size_le hm
    · refine Halts.bind (Halts.getToken (by split <;> decide)) fun key hkey => ?_
      exact Halts.bind (Halts.setRawToken (P := fun _ => True) _ _ trivial) fun _ _ => Halts.pure hkey

theorem imageLoop_halts (hu : CreatesNoMarkup env.upperFirst) (hrec : RecHalts rec M) (k : Nat) : ∀ (content : Str), wt content = k →
    size content ≤ M → Halts (fun n m => imageLoop env (rec n) m content) (Step content) := by
  induction k using Nat.strongRecOn with
  | _ k ih =>
    intro content hk hm
    refine Halts.succ ?_
    simp only [imageLoop]
    cases hf : findLinkStart content 0 with
    | none => exact Halts.pure (.refl _)
    | some p =>
      obtain ⟨start, stop⟩ := p
      obtain ⟨pre, mid, post, e1, e2, e3⟩ := findLinkStart_spec content 0 hf
      simp only
      cases hc : findClose content stop b!"[" b!"]" with
      | none => exact Halts.panic
      | some endIndex =>
        have hge := findClose_ge hc
        have hb : lts b!"[[" = 0 ∧ wt b!"[[" = 2 := by decide
        have hcolon : lts b!":" = 0 ∧ wt b!":" = 1 := by decide
        have hl := congrArg lts e1
        have hw := congrArg wt e1
        simp only [lts_append, wt_append] at hl hw
        have hstop : content.drop stop = post := by
          rw [e1]
          apply List.drop_left'
          simp only [List.length_append, List.length_cons, List.length_nil]
          omega
        have hstart : content.take start = pre := by
          rw [e1, List.append_assoc, List.append_assoc, List.append_assoc]
          apply List.take_left'
          omega
        have hpiece : (content.take endIndex).drop stop <+ post := by
          rw [← hstop]; exact (List.take_sublist _ _).drop _
        have hp := Fits.of_sublist hpiece
        have hp1 := hp.1; have hp2 := hp.2
        have hsmall : size ((content.take endIndex).drop stop) < M := lt_of_lt_of_le (size_lt.mpr (by omega)) hm
        refine Halts.bind (hrec _ hsmall) fun r hr => ?_
        refine Halts.bind (escapeImages_halts hu r) fun r' hr' => ?_
        rw [size_le] at hr
        refine Halts.bind (imageKey_halts hrec r' (lt_of_lt_of_le (size_lt.mpr (by omega)) hm)) fun key hkey => ?_
        refine Halts.ite (fun _ => ?_) fun _ => Halts.panic
        have hrest : content.drop (endIndex + 2) <+ post := by
          rw [← hstop]
          obtain ⟨d, hd⟩ := Nat.exists_eq_add_of_le (show stop ≤ endIndex + 2 by omega)
          rw [hd, ← List.drop_drop]
          exact List.drop_sublist _ _
        have hq := Fits.of_sublist hrest
        have hq1 := hq.1; have hq2 := hq.2
        have hlt : size (content.take start ++ key ++ content.drop (endIndex + 2)) < size content := by
          rw [size_lt, hstart]
          simp only [lts_append, wt_append, hkey.1, hkey.2]
          omega
        refine (ih (wt (content.take start ++ key ++ content.drop (endIndex + 2))) ?_ _ rfl (hlt.le.trans hm)).mono fun r h =>
          Step.trans (.inr hlt) h
        rw [hstart]
        simp only [wt_append, hkey.2]
        omega

theorem parseImages_halts (hu : CreatesNoMarkup env.upperFirst) (hrec : RecHalts rec M) (content : Str) (hm : size content ≤ M) :
    Halts (fun n m => parseImages env (rec n) m content) (Step content) := imageLoop_halts hu hrec _ content rfl hm

end Verif.Lemmas
