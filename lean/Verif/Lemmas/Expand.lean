import Verif.Model.Expand
import Verif.Spec.Expand
import Verif.Lemmas.Strings
import Verif.Lemmas.Cut
import Verif.Lemmas.Templates
import Verif.Lemmas.Tokens
import Mathlib.Data.List.Forall2

/-! Helper lemmas about the expansion of tokens. -/

set_option linter.unusedVariables false

namespace Verif.Model
open Verif.Go Verif.Spec
open scoped List

/-! ### The monad -/

theorem ExpM.bind_eq {α β : Type} (m : ExpM α) (f : α → ExpM β) :
    (m >>= f) = match m with
      | none => none
      | some (.ok a) => f a
      | some .err => some .err
      | some .panic => some .panic
      | some .fatal => some .fatal := rfl

@[simp] theorem ExpM.pure_bind {α β : Type} (a : α) (f : α → ExpM β) : (pure a >>= f : ExpM β) = f a := rfl

theorem ExpM.bind_assoc {α β γ : Type} (m : ExpM α) (f : α → ExpM β) (g : β → ExpM γ) :
    ((m >>= f) >>= g) = (m >>= fun a => f a >>= g) := by
  rw [ExpM.bind_eq m f, ExpM.bind_eq m]
  rcases m with _ | _ | _ | _ | _ <;> rfl

theorem ExpM.bind_ok {α β : Type} {m : ExpM α} {f : α → ExpM β} {b : β} :
    (m >>= f) = (some (.ok b) : Option (Res β)) ↔ ∃ a, m = (some (.ok a) : Option (Res α)) ∧ f a = (some (.ok b) : Option (Res β)) := by
  rw [ExpM.bind_eq]
  constructor
  · intro h
    split at h
    · cases h
    · rename_i a; exact ⟨a, rfl, h⟩
    · cases h
    · cases h
    · cases h
  · rintro ⟨a, rfl, h⟩; exact h

/-! ### Replacing the markers -/

/-- An element when the markers with `done m` have been replaced. -/
def Element.render (done : Marker → Bool) : Element → Str
  | .marker m => if done m then m.html else (Element.marker m).code
  | .token t n => (Element.token t n).code

def renderPieces (done : Marker → Bool) (pieces : List ElementPiece) (last : Str) : Str :=
  (pieces.map fun p => p.text ++ Element.render done p.element).flatten ++ last

theorem renderPieces_cons (done : Marker → Bool) (p : ElementPiece) (ps : List ElementPiece) (last : Str) :
    renderPieces done (p :: ps) last = p.text ++ Element.render done p.element ++ renderPieces done ps last := by
  simp [renderPieces]

theorem piecesText_cons (p : ElementPiece) (ps : List ElementPiece) (last : Str) :
    piecesText (p :: ps) last = p.text ++ p.element.code ++ piecesText ps last := by
  simp [piecesText]

theorem renderPieces_false (pieces : List ElementPiece) (last : Str) :
    renderPieces (fun _ => false) pieces last = piecesText pieces last := by
  unfold renderPieces piecesText
  congr 3

theorem dollar_not_mem_name (m : Marker) : (0x24 : Byte) ∉ m.name := by cases m <;> decide
theorem lt_not_mem_name (m : Marker) : (0x3C : Byte) ∉ m.name := by cases m <;> decide
theorem dollar_not_mem_html (m : Marker) : (0x24 : Byte) ∉ m.html := by cases m <;> decide
theorem name_ne_nil (m : Marker) : m.name ≠ [] := by cases m <;> decide
theorem html_lt (m : Marker) : ∃ r, m.html = 0x3C :: r := by cases m <;> exact ⟨_, rfl⟩
theorem name_injective {m m' : Marker} (h : m.name = m'.name) : m = m' := by
  revert h; cases m <;> cases m' <;> decide

/-- The characters between the double dollar signs. -/
def Element.key : Element → Str
  | .marker m => m.name
  | .token t n => b!"TOKEN_" ++ t ++ b!"_" ++ decimal n

theorem Element.code_eq (e : Element) : e.code = b!"$$" ++ Element.key e ++ b!"$$" := by
  cases e <;> simp [Element.code, Element.key, tokenKey]

theorem tokenChar_ne_dollar {c : Byte} (h : tokenChar c = true) : c ≠ 0x24 := by
  rintro rfl; exact absurd h (by decide)

theorem dollar_not_mem_key {e : Element} (h : e.WellFormed) : (0x24 : Byte) ∉ Element.key e := by
  cases e with
  | marker m => exact dollar_not_mem_name m
  | token t n =>
    simp only [Element.key, List.mem_append, not_or]
    refine ⟨⟨⟨by decide, ?_⟩, by decide⟩, ?_⟩
    · intro hm; exact tokenChar_ne_dollar (h.2 _ hm) rfl
    · intro hm
      have := decimal_digits n _ hm
      revert this; decide

theorem key_ne_nil (e : Element) : Element.key e ≠ [] := by
  cases e with
  | marker m => exact name_ne_nil m
  | token t n => simp [Element.key]

theorem key_token_ne_name (t : Str) (n : Nat) (m : Marker) : Element.key (.token t n) ≠ m.name := by
  have h2 : Element.key (.token t n) = 0x54 :: (Element.key (.token t n)).tail := rfl
  rw [h2]
  cases m <;> simp [Marker.name]

/-- The text of one marker. -/
def markerCode (m : Marker) : Str := b!"$$" ++ m.name ++ b!"$$"

theorem markerCode_ne (m : Marker) : markerCode m ≠ [] := by simp [markerCode]

/-- Texts in which no `$$` begins, also if they are followed by something else, are not changed. -/
theorem replaceAll_text (m : Marker) (new t R : Str) (h : ¬ b!"$$" <:+: t) (hR : ¬ b!"$" <:+ t ∨ ¬ b!"$" <+: R) :
    replaceAll (t ++ R) (markerCode m) new = t ++ replaceAll R (markerCode m) new := by
  induction t with
  | nil => rfl
  | cons c t ih =>
    rw [List.cons_append, replaceAll_cons_of_not_prefix, ih, List.cons_append]
    · intro hi; exact h (hi.trans (List.suffix_cons c t).isInfix)
    · rcases hR with hR | hR
      · left; intro hs; exact hR (hs.trans (List.suffix_cons c t))
      · exact Or.inr hR
    · intro hp
      have hp2 : b!"$$" <+: c :: (t ++ R) := (by simp [markerCode] : b!"$$" <+: markerCode m).trans hp
      rw [List.cons_prefix_cons] at hp2
      obtain ⟨rfl, hp3⟩ := hp2
      cases t with
      | nil =>
        rw [List.nil_append] at hp3
        rcases hR with hR | hR
        · exact hR (List.suffix_refl _)
        · exact hR hp3
      | cons d t =>
        rw [List.cons_append, List.cons_prefix_cons] at hp3
        obtain ⟨rfl, -⟩ := hp3
        exact h ⟨[], t, rfl⟩

theorem not_dd_of_not_mem {t : Str} (h : (0x24 : Byte) ∉ t) : ¬ b!"$$" <:+: t := by
  intro hi
  exact h (hi.subset (by simp))

theorem not_d_suffix_of_not_mem {t : Str} (h : (0x24 : Byte) ∉ t) : ¬ b!"$" <:+ t := by
  intro hi
  exact h (hi.subset (by simp))

/-- Behind a `$$` that does not belong to a marker, no marker begins with one of its dollar signs. -/
theorem render_not_name (m : Marker) (done : Marker → Bool) (ps : List ElementPiece) (last : Str)
    (hp : ∀ p ∈ ps, p.WellFormed) (hl : ¬ b!"$$" <:+: last) (pre : Str) (hpre : pre = [] ∨ pre = b!"$") :
    ¬ (pre ++ m.name ++ b!"$$") <+: renderPieces done ps last := by
  intro h
  cases ps with
  | nil =>
    apply hl
    have h1 : renderPieces done [] last = last := by simp [renderPieces]
    rw [h1] at h
    exact (List.suffix_append _ _).isInfix.trans h.isInfix
  | cons p ps =>
    rw [renderPieces_cons] at h
    obtain ⟨⟨h1, h2, h3⟩, hw⟩ := hp p (by simp)
    by_cases hlt : ∃ r, Element.render done p.element = 0x3C :: r
    · obtain ⟨r, hr⟩ := hlt
      rw [hr, List.append_assoc p.text, List.cons_append] at h
      have hc : (0x3C : Byte) ∉ pre ++ m.name ++ b!"$$" := by
        have := lt_not_mem_name m
        rcases hpre with rfl | rfl <;> simp [this]
      have := prefix_of_prefix_sep hc h
      exact h1 ((List.suffix_append _ _).isInfix.trans this.isInfix)
    · have hr : Element.render done p.element = b!"$$" ++ Element.key p.element ++ b!"$$" := by
        rcases p with ⟨t, m' | ⟨t', n⟩⟩
        · by_cases hd : done m'
          · exfalso; apply hlt
            simpa [Element.render, hd] using html_lt m'
          · simp only [Element.render, hd]
            exact Element.code_eq (.marker m')
        · exact Element.code_eq (.token t' n)
      rw [hr] at h
      -- the text is too long, too short or the name of the marker
      have hcut : p.text <+: p.text ++ (b!"$$" ++ Element.key p.element ++ b!"$$") ++ renderPieces done ps last := by
        rw [List.append_assoc]; exact List.prefix_append _ _
      rcases List.prefix_or_prefix_of_prefix h hcut with hx | hx
      · exact h1 ((List.suffix_append _ _).isInfix.trans hx.isInfix)
      · obtain ⟨u, hu⟩ := hx
        rw [← hu, List.append_assoc, List.prefix_append_right_inj] at h
        -- `u` begins with a dollar sign or is a suffix of `$$`
        have hu2 : u <+: b!"$$" ++ Element.key p.element ++ b!"$$" ++ renderPieces done ps last := h
        have hmem := dollar_not_mem_name m
        -- length of `u`
        rcases Nat.lt_or_ge u.length 3 with hlen | hlen
        · -- `u` is a suffix of `$$`
          have hsuf : u <:+ b!"$$" := by
            have h5 : u <:+ pre ++ m.name ++ b!"$$" := ⟨_, hu⟩
            exact List.suffix_of_suffix_length_le h5 (List.suffix_append _ _) (by simp; omega)
          have : u = [] ∨ u = b!"$" ∨ u = b!"$$" := by
            obtain ⟨v, hv⟩ := hsuf
            match v, u, hv with
            | [], _, hv => right; right; simpa using hv
            | [a], [b], hv => right; left; simp at hv; simp [hv.2]
            | [a, b], [], hv => left; rfl
            | [a], [], hv => simp at hv
            | [a], _ :: _ :: _, hv => simp at hv
            | [_, _], _ :: _, hv => simp at hv
            | _ :: _ :: _ :: _, _, hv => simp at hv
          rcases this with rfl | rfl | rfl
          · rw [List.append_nil] at hu
            exact h2 (hu ▸ (by exact ⟨pre ++ m.name ++ b!"$", by simp⟩))
          · have : p.text = pre ++ m.name ++ b!"$" := by
              have h6 : p.text ++ b!"$" = (pre ++ m.name ++ b!"$") ++ b!"$" := by rw [hu]; simp
              exact List.append_cancel_right h6
            exact h2 (this ▸ List.suffix_append _ _)
          · have h7 : p.text = pre ++ m.name := List.append_cancel_right hu
            rcases hpre with rfl | rfl
            · exact (h3 m).1 (by simpa using h7)
            · exact (h3 m).2 h7
        · -- the text ends within the name, which has no dollar signs
          have hmu : b!"$$" <+: u := by
            have h8 : b!"$$" <+: b!"$$" ++ Element.key p.element ++ b!"$$" ++ renderPieces done ps last := by
              rw [List.append_assoc, List.append_assoc]; exact List.prefix_append _ _
            exact List.prefix_of_prefix_length_le h8 hu2 (by simp; omega)
          obtain ⟨v, rfl⟩ := hmu
          have hv : v ≠ [] := by
            rintro rfl; simp at hlen
          -- remove the last two characters
          have h9 : ∃ w, v = w ++ b!"$" := by
            have h10 : b!"$$" ++ v <:+ pre ++ m.name ++ b!"$$" := ⟨_, hu⟩
            have h11 : b!"$" <:+ b!"$$" ++ v := by
              exact List.suffix_of_suffix_length_le (⟨pre ++ m.name ++ b!"$", by simp⟩) h10 (by simp)
            have h12 : b!"$" <:+ v := by
              have h12 : v <:+ b!"$$" ++ v := List.suffix_append _ _
              refine List.suffix_of_suffix_length_le h11 h12 ?_
              cases v with
              | nil => exact absurd rfl hv
              | cons _ _ => simp
            obtain ⟨w, hw⟩ := h12
            exact ⟨w, hw.symm⟩
          obtain ⟨w, rfl⟩ := h9
          have h13 : p.text ++ (b!"$$" ++ w) = pre ++ m.name ++ b!"$" := by
            have : (p.text ++ (b!"$$" ++ w)) ++ b!"$" = (pre ++ m.name ++ b!"$") ++ b!"$" := by
              rw [List.append_assoc (pre ++ m.name)]; simpa using hu
            exact List.append_cancel_right this
          -- two dollar signs in a row within `pre ++ name ++ "$"`
          have h14 : b!"$$" <:+: pre ++ m.name ++ b!"$" := ⟨p.text, w, by rw [← h13]; simp⟩
          clear h hu hu2 hcut h13
          rcases hpre with rfl | rfl <;> cases m <;> revert h14 <;> decide

theorem replaceAll_render (m : Marker) (done : Marker → Bool) (ps : List ElementPiece) (last : Str)
    (hp : ∀ p ∈ ps, p.WellFormed) (hl : ¬ b!"$$" <:+: last) (hd : done m = false) :
    replaceAll (renderPieces done ps last) (markerCode m) m.html =
      renderPieces (fun x => x == m || done x) ps last := by
  induction ps with
  | nil =>
    simp only [renderPieces, List.map_nil, List.flatten_nil, List.nil_append]
    apply replaceAll_of_not_infix
    intro hi
    apply hl
    refine List.IsInfix.trans ?_ hi
    exact ⟨[], m.name ++ b!"$$", by simp [markerCode]⟩
  | cons p ps ih =>
    have ih := ih (fun q hq => hp q (by simp [hq]))
    obtain ⟨⟨h1, h2, h3⟩, hw⟩ := hp p (by simp)
    rw [renderPieces_cons, renderPieces_cons, List.append_assoc, replaceAll_text m _ _ _ h1 (Or.inl h2), List.append_assoc]
    congr 1
    -- an element that is not the marker
    have other : ∀ e : Element, e.WellFormed → Element.key e ≠ m.name →
        replaceAll (e.code ++ renderPieces done ps last) (markerCode m) m.html =
          e.code ++ renderPieces (fun x => x == m || done x) ps last := by
      intro e he hne
      have hk := dollar_not_mem_key he
      have hR0 := render_not_name m done ps last (fun q hq => hp q (by simp [hq])) hl [] (Or.inl rfl)
      have hR1 := render_not_name m done ps last (fun q hq => hp q (by simp [hq])) hl b!"$" (Or.inr rfl)
      obtain ⟨k0, kt, hkt⟩ : ∃ k0 kt, Element.key e = k0 :: kt := by
        cases hh : Element.key e with
        | nil => exact absurd hh (key_ne_nil e)
        | cons a b => exact ⟨a, b, rfl⟩
      have hk0 : k0 ≠ 0x24 := by rintro rfl; exact hk (by simp [hkt])
      rw [Element.code_eq]
      have e1 : b!"$$" ++ Element.key e ++ b!"$$" ++ renderPieces done ps last =
          0x24 :: 0x24 :: (Element.key e ++ (0x24 :: 0x24 :: renderPieces done ps last)) := by simp
      rw [e1, replaceAll_cons_of_not_prefix, replaceAll_cons_of_not_prefix, replaceAll_text, replaceAll_cons_of_not_prefix,
        replaceAll_cons_of_not_prefix, ih]
      · simp
      · -- second dollar sign of the end
        intro hpre
        rw [markerCode, List.append_assoc] at hpre
        have : b!"$" ++ (m.name ++ b!"$$") <+: renderPieces done ps last := by
          have h5 : (0x24 : Byte) :: (b!"$" ++ (m.name ++ b!"$$")) <+: 0x24 :: renderPieces done ps last := by simpa using hpre
          exact (List.cons_prefix_cons.mp h5).2
        exact hR1 (by simpa using this)
      · intro hpre
        have h5 : (0x24 : Byte) :: 0x24 :: (m.name ++ b!"$$") <+: 0x24 :: 0x24 :: renderPieces done ps last := by
          simpa [markerCode] using hpre
        exact hR0 (by simpa using (List.cons_prefix_cons.mp (List.cons_prefix_cons.mp h5).2).2)
      · exact not_dd_of_not_mem hk
      · exact Or.inl (not_d_suffix_of_not_mem hk)
      · intro hpre
        rw [hkt] at hpre
        have h5 : (0x24 : Byte) :: 0x24 :: (m.name ++ b!"$$") <+: 0x24 :: k0 :: (kt ++ (0x24 :: 0x24 :: renderPieces done ps last)) := by
          simpa [markerCode] using hpre
        exact hk0 (List.cons_prefix_cons.mp (List.cons_prefix_cons.mp h5).2).1.symm
      · intro hpre
        have h5 : (0x24 : Byte) :: 0x24 :: (m.name ++ b!"$$") <+: 0x24 :: 0x24 :: (Element.key e ++ (0x24 :: 0x24 :: renderPieces done ps last)) := by
          simpa [markerCode] using hpre
        have h6 := (List.cons_prefix_cons.mp (List.cons_prefix_cons.mp h5).2).2
        have h7 : m.name <+: Element.key e :=
          prefix_of_prefix_sep (dollar_not_mem_name m) ((List.prefix_append _ _).trans h6)
        obtain ⟨u, hu⟩ := h7
        rw [← hu, List.append_assoc, List.prefix_append_right_inj] at h6
        cases u with
        | nil => exact hne (by simpa using hu.symm)
        | cons a u =>
          rw [List.cons_append, List.cons_prefix_cons] at h6
          exact hk (by rw [← hu, ← h6.1]; simp)
    rcases hpe : p.element with m' | ⟨t, n⟩
    · by_cases hmm : m' = m
      · subst hmm
        have e2 : Element.render done (.marker m') = markerCode m' := by
          simp [Element.render, hd, Element.code, markerCode]
        rw [e2, replaceAll_of_prefix (markerCode_ne m'), ih]
        simp [Element.render]
      · by_cases hdm : done m' = true
        · have e2 : ∀ d : Marker → Bool, d m' = true → Element.render d (.marker m') = m'.html := by
            intro d h; simp [Element.render, h]
          rw [e2 _ hdm, e2 _ (by simp [hdm]), replaceAll_text m _ _ _ (not_dd_of_not_mem (dollar_not_mem_html m'))
            (Or.inl (not_d_suffix_of_not_mem (dollar_not_mem_html m'))), ih]
        · have e2 : ∀ d : Marker → Bool, d m' = false → Element.render d (.marker m') = (Element.marker m').code := by
            intro d h; simp [Element.render, h]
          rw [e2 _ (by simpa using hdm), e2 _ (by simp [hdm, hmm])]
          exact other _ trivial (fun h => hmm (name_injective h))
    · exact other _ (hpe ▸ hw) (key_token_ne_name t n m)

theorem expandMarker_pieces (ps : List ElementPiece) (last : Str) (hp : ∀ p ∈ ps, p.WellFormed) (hl : ¬ b!"$$" <:+: last) :
    expandMarker (piecesText ps last) = renderPieces (fun _ => true) ps last := by
  have e1 : markerBoldOpen = markerCode .boldOpen := by decide
  have e2 : markerBoldClose = markerCode .boldClose := by decide
  have e3 : markerItalicOpen = markerCode .italicOpen := by decide
  have e4 : markerItalicClose = markerCode .italicClose := by decide
  have e5 : markerParagraph = markerCode .paragraph := by decide
  have f1 : b!"<b>" = Marker.html .boldOpen := by decide
  have f2 : b!"</b>" = Marker.html .boldClose := by decide
  have f3 : b!"<i>" = Marker.html .italicOpen := by decide
  have f4 : b!"</i>" = Marker.html .italicClose := by decide
  have f5 : b!"<br><br>" = Marker.html .paragraph := by decide
  unfold expandMarker
  simp only [e1, e2, e3, e4, e5, f1, f2, f3, f4, f5]
  rw [← renderPieces_false, replaceAll_render _ _ _ _ hp hl rfl, replaceAll_render _ _ _ _ hp hl (by decide),
    replaceAll_render _ _ _ _ hp hl (by decide), replaceAll_render _ _ _ _ hp hl (by decide),
    replaceAll_render _ _ _ _ hp hl (by decide)]
  congr 1
  funext x
  cases x <;> decide

/-! ### The loop -/

theorem closeLoop_dollar (k R : Str) (hk : (0x24 : Byte) ∉ k) (i : Nat) :
    closeLoop false b!"$$" b!"$$" (k ++ (0x24 :: 0x24 :: R)) 0 i 0 = some (i + k.length) := by
  induction k generalizing i with
  | nil => simp [closeLoop, sameToken, cursorText]
  | cons c k ih =>
    have hc : c ≠ 0x24 := by rintro rfl; simp at hk
    rw [List.cons_append, closeLoop]
    rw [if_neg (by simp [sameToken]), if_neg, ih (fun h => hk (by simp [h]))]
    · simp; omega
    · simp only [sameToken, cursorText]
      cases k <;> simp [hc]

/-- The text that has been collected before position `i`. -/
def flush {α : Type} (simple : Str → List α) (content : Str) (i : Nat) (segment : Option Nat) (new : List α) : List α :=
  addSegment new segment fun s => simple ((content.drop s).take (i - s))

theorem expandLoop_skip {α : Type} (simple : Str → List α) (ek : Str → ExpM (List α)) (content : Str) :
    ∀ (a R : Str) (i : Nat) (seg : Option Nat) (new : List α),
    expandLoop simple ek content (a ++ R) a.length i seg new = expandLoop simple ek content R 0 (i + a.length) seg new := by
  intro a
  induction a with
  | nil => intro R i seg new; rfl
  | cons c a ih =>
    intro R i seg new
    rw [List.cons_append, List.length_cons, expandLoop, ih]
    congr 1; omega

theorem take_append_of_drop {content t R : Str} {i s : Nat} (hs : s ≤ i) (h : content.drop i = t ++ R) :
    (content.drop s).take (i + t.length - s) = (content.drop s).take (i - s) ++ t := by
  have : i + t.length - s = (i - s) + t.length := by omega
  rw [this, List.take_add, List.drop_drop]
  have e : s + (i - s) = i := by omega
  rw [e, h, List.take_left]

/-- Text is collected. -/
theorem expandLoop_text (ek : Str → ExpM Str) (content : Str) : ∀ (t R : Str) (i : Nat) (seg : Option Nat) (new : Str),
    ¬ b!"$$" <:+: t → (¬ b!"$" <:+ t ∨ ¬ b!"$" <+: R) → content.drop i = t ++ R → (∀ s, seg = some s → s ≤ i) →
    ∃ seg', expandLoop expandSimpleString ek content (t ++ R) 0 i seg new = expandLoop expandSimpleString ek content R 0 (i + t.length) seg' new ∧
      (∀ s, seg' = some s → s ≤ i + t.length) ∧ flush expandSimpleString content (i + t.length) seg' new = flush expandSimpleString content i seg new ++ t := by
  intro t
  induction t with
  | nil => intro R i seg new _ _ _ hs; exact ⟨seg, rfl, hs, by simp⟩
  | cons c t ih =>
    intro R i seg new h hR hc hs
    have hnp : hasPrefix (c :: (t ++ R)) b!"$$" = false := by
      rw [← Bool.not_eq_true, hasPrefix_iff]
      intro hp2
      rw [List.cons_prefix_cons] at hp2
      obtain ⟨rfl, hp3⟩ := hp2
      cases t with
      | nil =>
        rw [List.nil_append] at hp3
        rcases hR with hR | hR
        · exact hR (List.suffix_refl _)
        · exact hR hp3
      | cons d t =>
        rw [List.cons_append, List.cons_prefix_cons] at hp3
        obtain ⟨rfl, -⟩ := hp3
        exact h ⟨[], t, rfl⟩
    have hd : content.drop (i + 1) = t ++ R := by
      rw [← List.drop_drop, hc]; rfl
    obtain ⟨seg', h1, h2, h3⟩ := ih R (i + 1) (seg.or (some i)) new
      (fun hi => h (hi.trans (List.suffix_cons c t).isInfix))
      (by
        rcases hR with hR | hR
        · left; intro hs'; exact hR (hs'.trans (List.suffix_cons c t))
        · exact Or.inr hR)
      hd
      (by
        intro s hs'
        cases seg with
        | none => simp at hs'; omega
        | some s0 => simp at hs'; have := hs s0 rfl; omega)
    refine ⟨seg', ?_, ?_, ?_⟩
    · rw [List.cons_append, expandLoop, hnp]
      simp only [Bool.false_eq_true, if_false]
      rw [h1]
      congr 1
      simp; omega
    · intro s hs'; have := h2 s hs'; simp; omega
    · have e : i + (c :: t).length = i + 1 + t.length := by simp; omega
      rw [e, h3]
      have hlast : flush expandSimpleString content (i + 1) (seg.or (some i)) new = flush expandSimpleString content i seg new ++ [c] := by
        cases seg with
        | none =>
          simp only [Option.none_or, flush, addSegment]
          have : content.drop i = [c] ++ (t ++ R) := hc
          rw [this]; simp [expandSimpleString]
        | some s0 =>
          simp only [Option.some_or, flush, addSegment, List.append_assoc]
          have := take_append_of_drop (t := [c]) (R := t ++ R) (hs s0 rfl) hc
          simp only [List.length_singleton] at this
          rw [this]; rfl
      rw [hlast]; simp

/-- A key is replaced. -/
theorem expandLoop_key {α : Type} (simple : Str → List α) (ek : Str → ExpM (List α)) (content k R : Str) (i : Nat)
    (seg : Option Nat) (new : List α)
    (hk : (0x24 : Byte) ∉ k) (hc : content.drop i = b!"$$" ++ k ++ b!"$$" ++ R) :
    expandLoop simple ek content (b!"$$" ++ k ++ b!"$$" ++ R) 0 i seg new =
      (ek k >>= fun x => expandLoop simple ek content R 0 (i + (b!"$$" ++ k ++ b!"$$").length) none (flush simple content i seg new ++ x)) := by
  have e1 : b!"$$" ++ k ++ b!"$$" ++ R = 0x24 :: (([0x24] ++ k ++ b!"$$") ++ R) := by simp
  have hd : content.drop (i + 2) = k ++ (0x24 :: 0x24 :: R) := by
    rw [← List.drop_drop, hc]; simp
  have hf : findClose content (i + 2) b!"$$" b!"$$" = some (i + 2 + k.length) := by
    rw [findClose, findCloseWith, hd, closeLoop_dollar k R hk]
  rw [e1, expandLoop]
  rw [if_pos (by simp [hasPrefix, List.isPrefixOf]), hf]
  simp only
  rw [hd]
  have e2 : i + 2 + k.length - (i + 2) = k.length := by omega
  rw [e2, List.take_left]
  congr 1
  funext x
  have e3 : i + 2 + k.length + 1 - i = ([0x24] ++ k ++ b!"$$").length := by simp; omega
  rw [e3, expandLoop_skip]
  congr 1
  simp; omega

/-- The expansion of an element. -/
def expandElement (env : HtmlEnv) (tokens : List (Str × Token)) (ex : Str → ExpM Str) : Element → ExpM Str
  | .marker m => pure m.html
  | .token type n =>
    match lookupToken tokens (tokenKey type n) with
    | none => ExpM.err
    | some token => expandToken env ex token

/-- The expansion of pieces of text. -/
def expandPieces (env : HtmlEnv) (tokens : List (Str × Token)) (ex : Str → ExpM Str) : List ElementPiece → Str → ExpM Str
  | [], last => pure last
  | p :: ps, last => do
    let x ← expandElement env tokens ex p.element
    let r ← expandPieces env tokens ex ps last
    pure (p.text ++ x ++ r)

theorem expandLoop_pieces (env : HtmlEnv) (tokens : List (Str × Token)) (ex : Str → ExpM Str) (content last : Str)
    (hl : ¬ b!"$$" <:+: last) (ps : List ElementPiece) (hp : ∀ p ∈ ps, p.WellFormed) :
    ∀ (i : Nat) (seg : Option Nat) (new : Str), content.drop i = renderPieces (fun _ => true) ps last →
      (∀ s, seg = some s → s ≤ i) →
      expandLoop expandSimpleString (expandKey env tokens ex) content (renderPieces (fun _ => true) ps last) 0 i seg new =
      (expandPieces env tokens ex ps last >>= fun r => pure (flush expandSimpleString content i seg new ++ r)) := by
  induction ps with
  | nil =>
    intro i seg new hc hs
    have e : renderPieces (fun _ => true) [] last = last ++ [] := by simp [renderPieces]
    rw [e] at hc ⊢
    obtain ⟨seg', h1, h2, h3⟩ := expandLoop_text (expandKey env tokens ex) content last [] i seg new hl (Or.inr (by simp)) hc hs
    rw [h1, expandLoop, expandPieces, ExpM.pure_bind, ← h3]
    congr 1
    cases seg' with
    | none => rfl
    | some s =>
      simp only [flush, addSegment]
      congr 1
      rw [List.take_of_length_le]
      have hlen := congrArg List.length hc
      have := h2 s rfl
      simp at hlen ⊢
      omega
  | cons p ps ih =>
    intro i seg new hc hs
    obtain ⟨⟨h1, h2, h3⟩, hw⟩ := hp p (by simp)
    have ih := ih (fun q hq => hp q (by simp [hq]))
    rw [renderPieces_cons] at hc ⊢
    rw [List.append_assoc] at hc ⊢
    obtain ⟨seg', g1, g2, g3⟩ := expandLoop_text (expandKey env tokens ex) content p.text _ i seg new h1 (Or.inl h2) hc hs
    rw [g1, expandPieces]
    have hc2 : content.drop (i + p.text.length) =
        Element.render (fun _ => true) p.element ++ renderPieces (fun _ => true) ps last := by
      rw [← List.drop_drop, hc, List.drop_left]
    rcases hpe : p.element with m | ⟨t, n⟩
    · rw [hpe] at hc2
      have er : Element.render (fun _ => true) (.marker m) = m.html := by simp [Element.render]
      rw [er] at hc2 ⊢
      obtain ⟨seg2, k1, k2, k3⟩ := expandLoop_text (expandKey env tokens ex) content m.html _ _ seg' new
        (not_dd_of_not_mem (dollar_not_mem_html m)) (Or.inl (not_d_suffix_of_not_mem (dollar_not_mem_html m))) hc2 g2
      rw [k1, ih _ _ _ (by rw [← List.drop_drop, hc2, List.drop_left]) k2, k3, g3]
      simp only [expandElement, ExpM.pure_bind]
      rw [ExpM.bind_assoc]
      simp
    · rw [hpe] at hc2
      have er : Element.render (fun _ => true) (.token t n) = b!"$$" ++ Element.key (.token t n) ++ b!"$$" :=
        Element.code_eq (.token t n)
      rw [er] at hc2 ⊢
      have ek : b!"$$" ++ Element.key (.token t n) ++ b!"$$" = tokenKey t n := (Element.code_eq (.token t n)).symm
      rw [expandLoop_key _ _ _ _ _ _ _ _ (dollar_not_mem_key (hpe ▸ hw)) hc2]
      simp only [expandElement, expandKey]
      rw [ek, ExpM.bind_assoc]
      congr 1
      funext x
      rw [ih _ _ _ (by rw [← List.drop_drop, hc2, ek, List.drop_left]) (by simp), ExpM.bind_assoc]
      simp [flush, addSegment] at g3 ⊢
      simp [g3]

/-! ### Recognising tokens -/

theorem tokenName_of (t : Str) (n : Nat) (h0 : t ≠ []) : tokenName (t ++ b!"_" ++ decimal n) = true := by
  have hd : ∀ c ∈ (decimal n).reverse, digit c = true := by
    intro c hc
    have := decimal_digits n c (by simpa using hc)
    simp [digit, this.1, this.2]
  have e : (t ++ b!"_" ++ decimal n).reverse = (decimal n).reverse ++ (0x5F :: t.reverse) := by simp
  unfold tokenName
  simp only [e]
  have h1 : ((decimal n).reverse ++ (0x5F :: t.reverse)).takeWhile digit = (decimal n).reverse := by
    rw [List.takeWhile_append_of_pos hd, List.takeWhile_cons_of_neg (by decide), List.append_nil]
  have h2 : ((decimal n).reverse ++ (0x5F :: t.reverse)).dropWhile digit = 0x5F :: t.reverse := by
    rw [List.dropWhile_append_of_pos hd, List.dropWhile_cons_of_neg (by decide)]
  rw [h1, h2]
  simp [h0, decimal_ne_nil]

theorem matchToken_key (t : Str) (n : Nat) (h : t ≠ [] ∧ ∀ c ∈ t, tokenChar c = true) (R : Str) :
    matchToken (tokenKey t n ++ R) = some R := by
  have e : tokenKey t n ++ R = b!"$$TOKEN_" ++ ((t ++ b!"_" ++ decimal n) ++ (0x24 :: 0x24 :: R)) := by simp [tokenKey]
  have hall : ∀ c ∈ t ++ b!"_" ++ decimal n, tokenChar c = true := by
    intro c hc
    simp only [List.mem_append] at hc
    rcases hc with (hc | hc) | hc
    · exact h.2 c hc
    · simp at hc; subst hc; decide
    · have := decimal_digits n c hc
      simp [tokenChar, this.1, this.2]
  have h1 : ((t ++ b!"_" ++ decimal n) ++ (0x24 :: 0x24 :: R)).takeWhile tokenChar = t ++ b!"_" ++ decimal n := by
    rw [List.takeWhile_append_of_pos hall, List.takeWhile_cons_of_neg (by decide), List.append_nil]
  have h2 : ((t ++ b!"_" ++ decimal n) ++ (0x24 :: 0x24 :: R)).dropWhile tokenChar = 0x24 :: 0x24 :: R := by
    rw [List.dropWhile_append_of_pos hall, List.dropWhile_cons_of_neg (by decide)]
  rw [e, matchToken, if_pos (by rw [hasPrefix_iff]; exact List.prefix_append _ _)]
  have h3 : List.drop 8 (b!"$$TOKEN_" ++ ((t ++ b!"_" ++ decimal n) ++ (0x24 :: 0x24 :: R))) =
      (t ++ b!"_" ++ decimal n) ++ (0x24 :: 0x24 :: R) := rfl
  rw [h3]
  simp only [h1, h2, tokenName_of t n h.1]
  simp [hasPrefix, List.isPrefixOf]

theorem matchesSomewhere_append (f : Str → Bool) (a b : Str) (h : f b = true) : matchesSomewhere f (a ++ b) = true := by
  induction a with
  | nil => cases b with
    | nil => simpa [matchesSomewhere] using h
    | cons c b => simp [matchesSomewhere, h]
  | cons c a ih => simp [matchesSomewhere, ih]

theorem hasToken_pieces (ps : List ElementPiece) (last : Str) (hp : ∀ p ∈ ps, p.WellFormed)
    (h : hasToken (renderPieces (fun _ => true) ps last) = false) : ∀ p ∈ ps, ∃ m, p.element = .marker m := by
  intro p hpm
  rcases hpe : p.element with m | ⟨t, n⟩
  · exact ⟨m, rfl⟩
  · exfalso
    obtain ⟨a, b, rfl⟩ := List.append_of_mem hpm
    have e : renderPieces (fun _ => true) (a ++ p :: b) last =
        ((a.map fun p => p.text ++ Element.render (fun _ => true) p.element).flatten ++ p.text) ++
          (tokenKey t n ++ renderPieces (fun _ => true) b last) := by
      simp [renderPieces, hpe, Element.render, Element.code]
    have hw := (hp p hpm).2
    rw [hpe] at hw
    have := matchesSomewhere_append (fun s => (matchToken s).isSome)
      ((a.map fun p => p.text ++ Element.render (fun _ => true) p.element).flatten ++ p.text)
      (tokenKey t n ++ renderPieces (fun _ => true) b last) (by rw [matchToken_key t n hw]; rfl)
    rw [← e] at this
    rw [hasToken, this] at h
    exact absurd h (by simp)

theorem expandPieces_markers (env : HtmlEnv) (tokens : List (Str × Token)) (ex : Str → ExpM Str) (ps : List ElementPiece)
    (last : Str) (h : ∀ p ∈ ps, ∃ m, p.element = .marker m) :
    expandPieces env tokens ex ps last = pure (renderPieces (fun _ => true) ps last) := by
  induction ps with
  | nil => simp [expandPieces, renderPieces]
  | cons p ps ih =>
    obtain ⟨m, hm⟩ := h p (by simp)
    rw [expandPieces, ih (fun q hq => h q (by simp [hq])), renderPieces_cons]
    simp [hm, expandElement, Element.render]

theorem expandString_pieces (env : HtmlEnv) (tokens : List (Str × Token)) (fuel : Nat) (ps : List ElementPiece)
    (last : Str) (hp : ∀ p ∈ ps, p.WellFormed) (hl : ¬ b!"$$" <:+: last) :
    expandString env tokens (fuel + 1) (piecesText ps last) =
      expandPieces env tokens (expandString env tokens fuel) ps last := by
  rw [expandString, expandMarker_pieces ps last hp hl]
  split
  · rw [expandLoop_pieces env tokens (expandString env tokens fuel) (renderPieces (fun _ => true) ps last) last hl ps hp 0
      none [] rfl (by simp)]
    simp only [flush, addSegment, List.nil_append]
    rw [ExpM.bind_eq]
    rcases expandPieces env tokens (expandString env tokens fuel) ps last with _ | _ | _ | _ | _ <;> rfl
  · rename_i h
    exact (expandPieces_markers env tokens _ ps last (hasToken_pieces ps last hp (by simpa using h))).symm

/-! ### The order of the texts -/

theorem _root_.Verif.Spec.InOrder.prepend {leaves : List Str} {s : Str} (h : InOrder leaves s) (a : Str) : InOrder leaves (a ++ s) := by
  cases h with
  | nil => exact .nil _
  | cons before leaf h =>
    rename_i rest _
    have := InOrder.cons (a ++ before) leaf h
    simpa using this

theorem _root_.Verif.Spec.InOrder.append {l₁ l₂ : List Str} {s₁ s₂ : Str} (h₁ : InOrder l₁ s₁) (h₂ : InOrder l₂ s₂) :
    InOrder (l₁ ++ l₂) (s₁ ++ s₂) := by
  induction h₁ with
  | nil rest => exact h₂.prepend rest
  | cons before leaf h ih =>
    have := InOrder.cons before leaf ih
    simpa using this

theorem _root_.Verif.Spec.InOrder.around {leaves : List Str} {s : Str} (h : InOrder leaves s) (a b : Str) : InOrder leaves (a ++ s ++ b) := by
  have := (h.append (InOrder.nil b)).prepend a
  simpa using this

theorem _root_.Verif.Spec.InOrder.self (s : Str) : InOrder [s] s := by
  have := InOrder.cons [] s (InOrder.nil [])
  simpa using this

theorem _root_.Verif.Spec.InOrder.split {l₁ l₂ : List Str} {s : Str} (h : InOrder (l₁ ++ l₂) s) :
    ∃ s₁ s₂, s = s₁ ++ s₂ ∧ InOrder l₁ s₁ ∧ InOrder l₂ s₂ := by
  induction l₁ generalizing s with
  | nil => exact ⟨[], s, rfl, .nil _, h⟩
  | cons x l₁ ih =>
    cases h with
    | cons before leaf h =>
      obtain ⟨s₁, s₂, rfl, h1, h2⟩ := ih h
      exact ⟨before ++ x ++ s₁, s₂, by simp, .cons _ _ h1, h2⟩

/-- The texts of a slice are in the joined text. -/
theorem _root_.Verif.Spec.InOrder.join {sep : Str} {leaves : List (List Str)} {parts : List Str}
    (h : List.Forall₂ InOrder leaves parts) : InOrder leaves.flatten (join sep parts) := by
  induction h with
  | nil => exact .nil _
  | @cons l p ls ps h hs ih =>
    cases hs with
    | nil => simpa [Verif.Go.join] using h
    | @cons l' p' ls' ps' h' hs' =>
      have e : Verif.Go.join sep (p :: p' :: ps') = p ++ (sep ++ Verif.Go.join sep (p' :: ps')) := by
        simp [Verif.Go.join]
      rw [e, List.flatten_cons]
      exact h.append (ih.prepend sep)

/-- `ex` yields these texts. -/
abbrev Yields (ex : Str → ExpM Str) : List Str → List Str → Prop :=
  List.Forall₂ fun c h => ex c = (pure h : ExpM Str)

theorem Yields.split {ex : Str → ExpM Str} {a b hs : List Str} (h : Yields ex (a ++ b) hs) :
    ∃ h₁ h₂, hs = h₁ ++ h₂ ∧ Yields ex a h₁ ∧ Yields ex b h₂ := by
  refine ⟨hs.take a.length, hs.drop a.length, (List.take_append_drop _ _).symm, ?_, ?_⟩
  · have := List.forall₂_take a.length h
    simpa using this
  · have := List.forall₂_drop a.length h
    simpa using this

theorem inOrder_itemHtml {type : ItemType} {leaves : List Str} {s : Str} (h : InOrder leaves s) :
    InOrder leaves (itemHtml type s) := by
  unfold itemHtml
  cases type with
  | normal =>
    simp only
    split
    · split
      · exact h
      · have := h.around [] b!"</li>"; simpa using this
    · exact h.around _ _
  | descriptionHead => exact h.around _ _
  | descriptionItem => exact h.around _ _

theorem inOrder_listHtml {kind : ListKind} {leaves : List Str} {s : Str} (h : InOrder leaves s) :
    InOrder leaves (listHtml kind s) := by
  cases kind <;> exact h.around _ _

mutual
theorem expandList_texts (ex : Str → ExpM Str) : ∀ (l : ListTok) (hs : List Str), Yields ex (listTexts l) hs →
    ∃ html, expandList ex l = (pure html : ExpM Str) ∧ InOrder hs html
  | .mk kind items, hs, h => by
    obtain ⟨parts, leaves, h1, h2, h3⟩ := expandItems_texts ex items hs h
    refine ⟨listHtml kind (join b!"\n" parts), ?_, ?_⟩
    · rw [expandList, h1]; rfl
    · rw [h2]; exact inOrder_listHtml (InOrder.join h3)

theorem expandItems_texts (ex : Str → ExpM Str) : ∀ (items : List ItemTok) (hs : List Str), Yields ex (itemsTexts items) hs →
    ∃ (parts : List Str) (leaves : List (List Str)), expandItems ex items = (pure parts : ExpM (List Str)) ∧
      hs = leaves.flatten ∧ List.Forall₂ InOrder leaves parts
  | [], hs, h => by
    cases h
    exact ⟨[], [], rfl, rfl, .nil⟩
  | item :: rest, hs, h => by
    obtain ⟨h₁, h₂, rfl, y₁, y₂⟩ := Yields.split (a := itemTexts item) (b := itemsTexts rest) h
    obtain ⟨html, e1, i1⟩ := expandItem_texts ex item h₁ y₁
    obtain ⟨parts, leaves, e2, rfl, i2⟩ := expandItems_texts ex rest h₂ y₂
    refine ⟨html :: parts, h₁ :: leaves, ?_, rfl, .cons i1 i2⟩
    rw [expandItems, e1, ExpM.pure_bind, e2]; rfl

theorem expandItem_texts (ex : Str → ExpM Str) : ∀ (item : ItemTok) (hs : List Str), Yields ex (itemTexts item) hs →
    ∃ html, expandItem ex item = (pure html : ExpM Str) ∧ InOrder hs html
  | .mk type content subLists, hs, h => by
    cases h with
    | @cons _ c _ hs h1 hr =>
      obtain ⟨parts, leaves, e2, rfl, i2⟩ := expandSubLists_texts ex subLists hs hr
      refine ⟨itemHtml type (join b!"\n" (c :: parts)), ?_, ?_⟩
      · rw [expandItem, h1, ExpM.pure_bind, e2]; rfl
      · have : InOrder ([c] :: leaves).flatten (join b!"\n" (c :: parts)) := InOrder.join (.cons (InOrder.self c) i2)
        exact inOrder_itemHtml (by simpa using this)

theorem expandSubLists_texts (ex : Str → ExpM Str) : ∀ (ls : List ListTok) (hs : List Str), Yields ex (listsTexts ls) hs →
    ∃ (parts : List Str) (leaves : List (List Str)), expandSubLists ex ls = (pure parts : ExpM (List Str)) ∧
      hs = leaves.flatten ∧ List.Forall₂ InOrder leaves parts
  | [], hs, h => by
    cases h
    exact ⟨[], [], rfl, rfl, .nil⟩
  | l :: rest, hs, h => by
    obtain ⟨h₁, h₂, rfl, y₁, y₂⟩ := Yields.split (a := listTexts l) (b := listsTexts rest) h
    obtain ⟨html, e1, i1⟩ := expandList_texts ex l h₁ y₁
    obtain ⟨parts, leaves, e2, rfl, i2⟩ := expandSubLists_texts ex rest h₂ y₂
    refine ⟨html :: parts, h₁ :: leaves, ?_, rfl, .cons i1 i2⟩
    rw [expandSubLists, e1, ExpM.pure_bind, e2]; rfl
end

theorem mapM_texts {α : Type} (ex : Str → ExpM Str) (f : α → ExpM Str) (texts : α → List Str)
    (hf : ∀ a hs, Yields ex (texts a) hs → ∃ html, f a = (pure html : ExpM Str) ∧ InOrder hs html) :
    ∀ (l : List α) (hs : List Str), Yields ex (l.flatMap texts) hs →
      ∃ (parts : List Str) (leaves : List (List Str)), ExpM.mapM f l = (pure parts : ExpM (List Str)) ∧
        hs = leaves.flatten ∧ List.Forall₂ InOrder leaves parts
  | [], hs, h => by
    cases h
    exact ⟨[], [], rfl, rfl, .nil⟩
  | a :: l, hs, h => by
    obtain ⟨h₁, h₂, rfl, y₁, y₂⟩ := Yields.split (a := texts a) (b := l.flatMap texts) (by simpa using h)
    obtain ⟨html, e1, i1⟩ := hf a h₁ y₁
    obtain ⟨parts, leaves, e2, rfl, i2⟩ := mapM_texts ex f texts hf l h₂ y₂
    refine ⟨html :: parts, h₁ :: leaves, ?_, rfl, .cons i1 i2⟩
    rw [ExpM.mapM, e1, ExpM.pure_bind, e2]; rfl

theorem expandCol_texts (ex : Str → ExpM Str) (col : TableCol) (hs : List Str) (h : Yields ex [col.content] hs) :
    ∃ html, expandCol ex col = (pure html : ExpM Str) ∧ InOrder hs html := by
  cases h with
  | @cons _ c _ hs h1 hr =>
    cases hr
    refine ⟨_, by rw [expandCol, h1]; rfl, ?_⟩
    split
    · have := (InOrder.self c).around (b!"<th" ++ (if join b!" " col.attributes ≠ [] then b!" " ++ join b!" " col.attributes
        else join b!" " col.attributes) ++ b!">\n") b!"\n</th>\n"
      simpa using this
    · have := (InOrder.self c).around (b!"<td" ++ (if join b!" " col.attributes ≠ [] then b!" " ++ join b!" " col.attributes
        else join b!" " col.attributes) ++ b!">\n") b!"\n</td>"
      simpa using this

theorem expandRow_texts (ex : Str → ExpM Str) (row : List TableCol) (hs : List Str)
    (h : Yields ex (row.map TableCol.content) hs) :
    ∃ html, expandRow ex row = (pure html : ExpM Str) ∧ InOrder hs html := by
  obtain ⟨parts, leaves, e, rfl, i⟩ := mapM_texts ex (expandCol ex) (fun c => [c.content]) (expandCol_texts ex) row hs
    (by rw [← List.map_eq_flatMap]; exact h)
  refine ⟨_, by rw [expandRow, e]; rfl, ?_⟩
  exact (InOrder.join i).around _ _

/-- All texts of a token are part of its expansion. -/
theorem expandToken_texts (env : HtmlEnv) (ex : Str → ExpM Str) (token : Token) (hs : List Str)
    (hm : ∀ s, ∃ r, env.math s = .ok r) (h1 : ∀ s, token ≠ .string s) (h2 : ∀ s, token ≠ .nowiki s)
    (h : Yields ex (tokenTexts token) hs) :
    ∃ html, expandToken env ex token = (pure html : ExpM Str) ∧ InOrder hs html := by
  have one : ∀ (c : Str), Yields ex [c] hs → ∃ x, hs = [x] ∧ ex c = (pure x : ExpM Str) := by
    intro c h
    cases h with
    | @cons _ x _ _ h1 hr => cases hr; exact ⟨x, rfl, h1⟩
  cases token with
  | heading content depth =>
    obtain ⟨x, rfl, hx⟩ := one _ h
    refine ⟨_, by rw [expandToken, hx]; rfl, ?_⟩
    have := (InOrder.self x).around (b!"<h" ++ decimal depth ++ b!">") (b!"</h" ++ decimal depth ++ b!">")
    simpa using this
  | internalLink name text =>
    obtain ⟨x, rfl, hx⟩ := one _ h
    exact ⟨x, by rw [expandToken, hx], InOrder.self x⟩
  | externalLink url text =>
    obtain ⟨x, rfl, hx⟩ := one _ h
    refine ⟨_, by rw [expandToken, hx]; rfl, ?_⟩
    exact (InOrder.self x).around (b!"<a href=\"" ++ url ++ b!"\">") b!"</a>"
  | string s => exact absurd rfl (h1 s)
  | nowiki s => exact absurd rfl (h2 s)
  | table rows caption =>
    obtain ⟨h₁, h₂, rfl, y₁, y₂⟩ := Yields.split h
    obtain ⟨parts, leaves, e, rfl, i⟩ := mapM_texts ex (expandRow ex) (fun row => row.map TableCol.content)
      (expandRow_texts ex) rows h₁ y₁
    cases y₂ with
    | @cons _ c _ _ hc hr =>
      cases hr
      refine ⟨_, by rw [expandToken, expandTable, e, ExpM.pure_bind, hc]; rfl, ?_⟩
      have := ((InOrder.join (sep := b!"\n") i).around (b!"<div class=\"figure\">\n<table>\n") b!"\n</table>").append
        ((InOrder.self c).around (b!"\n<div class=\"caption\">\n") (b!"\n</div>" ++ b!"\n</div>"))
      simpa using this
  | list l => exact expandList_texts ex l hs h
  | image filename caption x y =>
    obtain ⟨c, rfl, hx⟩ := one _ h
    refine ⟨_, by rw [expandToken, hx]; rfl, ?_⟩
    have := (InOrder.self c).around (b!"<div class=\"figure\">\n<img alt=\"image\" src=\"./" ++ imageSource env filename ++ b!"\" " ++
      expandSizeTemplate x y ++ b!">\n<div class=\"caption\">\n") b!"\n</div>\n</div>"
    simpa using this
  | inlineImage filename x y => cases h; exact ⟨_, rfl, .nil _⟩
  | refDefinition index content =>
    obtain ⟨c, rfl, hx⟩ := one _ h
    refine ⟨_, by rw [expandToken, hx]; rfl, ?_⟩
    have := (InOrder.self c).around (b!"[" ++ decimal (index + 1) ++ b!"] ") b!"<br>"
    simpa using this
  | refUsage index => cases h; exact ⟨_, rfl, .nil _⟩
  | math content =>
    cases h
    obtain ⟨⟨a, b, c, d⟩, hr⟩ := hm content
    refine ⟨_, by rw [expandToken, hr], .nil _⟩

theorem Visible.pieces {tokens : List (Str × Token)} {contents leaves : List Str} (h : Visible tokens contents leaves) :
    ∀ c ∈ contents, ∃ ps last, c = piecesText ps last ∧ (∀ p ∈ ps, p.WellFormed) ∧ ¬ b!"$$" <:+: last := by
  induction h with
  | nil => simp
  | last h hr ih =>
    intro c hc
    rcases List.mem_cons.mp hc with rfl | hc
    · exact ⟨[], _, by simp [piecesText], by simp, h⟩
    · exact ih c hc
  | @marker text content contents leaves m h hr ih =>
    intro c hc
    rcases List.mem_cons.mp hc with rfl | hc
    · obtain ⟨ps, last, rfl, hp, hl⟩ := ih content (by simp)
      refine ⟨⟨text, .marker m⟩ :: ps, last, by rw [piecesText_cons]; rfl, ?_, hl⟩
      intro p hpm
      rcases List.mem_cons.mp hpm with rfl | hpm
      · exact ⟨h, trivial⟩
      · exact hp p hpm
    · exact ih c (by simp [hc])
  | @token text content type n token contents inner leaves h ht hk hs hi hr ih1 ih =>
    intro c hc
    rcases List.mem_cons.mp hc with rfl | hc
    · obtain ⟨ps, last, rfl, hp, hl⟩ := ih content (by simp)
      refine ⟨⟨text, .token type n⟩ :: ps, last, by rw [piecesText_cons]; rfl, ?_, hl⟩
      intro p hpm
      rcases List.mem_cons.mp hpm with rfl | hpm
      · exact ⟨h, ht⟩
      · exact hp p hpm
    · exact ih c (by simp [hc])
  | @nowiki text content type verbatim n contents leaves h ht hk hr ih =>
    intro c hc
    rcases List.mem_cons.mp hc with rfl | hc
    · obtain ⟨ps, last, rfl, hp, hl⟩ := ih content (by simp)
      refine ⟨⟨text, .token type n⟩ :: ps, last, by rw [piecesText_cons]; rfl, ?_, hl⟩
      intro p hpm
      rcases List.mem_cons.mp hpm with rfl | hpm
      · exact ⟨h, ht⟩
      · exact hp p hpm
    · exact ih c (by simp [hc])

/-- One element and the rest of the text. -/
theorem expandString_cons (env : HtmlEnv) (tokens : List (Str × Token)) (fuel : Nat) (text content : Str) (e : Element)
    (h : ∃ ps last, content = piecesText ps last ∧ (∀ p ∈ ps, p.WellFormed) ∧ ¬ b!"$$" <:+: last)
    (ht : Unambiguous text) (he : e.WellFormed) :
    expandString env tokens (fuel + 1) (text ++ e.code ++ content) =
      (expandElement env tokens (expandString env tokens fuel) e >>= fun x =>
        expandString env tokens (fuel + 1) content >>= fun r => pure (text ++ x ++ r)) := by
  obtain ⟨ps, last, rfl, hp, hl⟩ := h
  have : text ++ e.code ++ piecesText ps last = piecesText (⟨text, e⟩ :: ps) last := by rw [piecesText_cons]
  rw [this, expandString_pieces env tokens fuel _ last _ hl, expandString_pieces env tokens fuel _ last hp hl, expandPieces]
  intro p hpm
  rcases List.mem_cons.mp hpm with rfl | hpm
  · exact ⟨ht, he⟩
  · exact hp p hpm

theorem Visible.expand {env : HtmlEnv} {tokens : List (Str × Token)} {contents leaves : List Str}
    (hm : ∀ s, ∃ r, env.math s = .ok r) (h : Visible tokens contents leaves) :
    ∃ N, ∀ fuel, N ≤ fuel → ∃ htmls, Yields (expandString env tokens fuel) contents htmls ∧
      ∀ html, InOrder htmls html → InOrder leaves html := by
  induction h with
  | nil => exact ⟨0, fun _ _ => ⟨[], .nil, fun html _ => .nil _⟩⟩
  | @last text contents leaves h hr ih =>
    obtain ⟨N, ih⟩ := ih
    refine ⟨N + 1, fun fuel hf => ?_⟩
    obtain ⟨f, rfl⟩ : ∃ f, fuel = f + 1 := ⟨fuel - 1, by omega⟩
    obtain ⟨htmls, y, io⟩ := ih (f + 1) (by omega)
    refine ⟨text :: htmls, .cons ?_ y, ?_⟩
    · have := expandString_pieces env tokens f [] text (by simp) h
      simpa [piecesText, expandPieces] using this
    · intro html hh
      cases hh with
      | cons before leaf hh => exact .cons _ _ (io _ hh)
  | @marker text content contents leaves m h hr ih =>
    obtain ⟨N, ih⟩ := ih
    refine ⟨N + 1, fun fuel hf => ?_⟩
    obtain ⟨f, rfl⟩ : ∃ f, fuel = f + 1 := ⟨fuel - 1, by omega⟩
    obtain ⟨htmls, y, io⟩ := ih (f + 1) (by omega)
    cases y with
    | @cons _ c _ htmls hc y =>
      refine ⟨(text ++ m.html ++ c) :: htmls, .cons ?_ y, ?_⟩
      · have := expandString_cons env tokens f text content (.marker m) (Visible.pieces hr _ (by simp)) h trivial
        rw [hc] at this
        exact this
      · intro html hh
        cases hh with
        | cons before leaf hh =>
          have := InOrder.cons before text ((io _ (InOrder.cons [] c hh)).prepend m.html)
          simpa using this
  | @token text content type n token contents inner leaves h ht hk hs hi hr ih1 ih =>
    obtain ⟨N1, ih1⟩ := ih1
    obtain ⟨N, ih⟩ := ih
    refine ⟨N + N1 + 1, fun fuel hf => ?_⟩
    obtain ⟨f, rfl⟩ : ∃ f, fuel = f + 1 := ⟨fuel - 1, by omega⟩
    obtain ⟨htmls, y, io⟩ := ih (f + 1) (by omega)
    obtain ⟨inners, y1, io1⟩ := ih1 f (by omega)
    obtain ⟨x, hx, iox⟩ := expandToken_texts env (expandString env tokens f) token inners hm hs.1 hs.2 y1
    cases y with
    | @cons _ c _ htmls hc y =>
      refine ⟨(text ++ x ++ c) :: htmls, .cons ?_ y, ?_⟩
      · have := expandString_cons env tokens f text content (.token type n) (Visible.pieces hr _ (by simp)) h ht
        simp only [expandElement, hk] at this
        rw [hx, hc] at this
        exact this
      · intro html hh
        cases hh with
        | cons before leaf hh =>
          have := InOrder.cons before text ((io1 _ iox).append (io _ (InOrder.cons [] c hh)))
          simpa using this
  | @nowiki text content type verbatim n contents leaves h ht hk hr ih =>
    obtain ⟨N, ih⟩ := ih
    refine ⟨N + 1, fun fuel hf => ?_⟩
    obtain ⟨f, rfl⟩ : ∃ f, fuel = f + 1 := ⟨fuel - 1, by omega⟩
    obtain ⟨htmls, y, io⟩ := ih (f + 1) (by omega)
    cases y with
    | @cons _ c _ htmls hc y =>
      refine ⟨(text ++ verbatim ++ c) :: htmls, .cons ?_ y, ?_⟩
      · have := expandString_cons env tokens f text content (.token type n) (Visible.pieces hr _ (by simp)) h ht
        simp only [expandElement, hk, expandToken] at this
        rw [hc] at this
        exact this
      · intro html hh
        cases hh with
        | cons before leaf hh =>
          have := InOrder.cons before text ((InOrder.self verbatim).append (io _ (InOrder.cons [] c hh)))
          simpa using this

end Verif.Model
