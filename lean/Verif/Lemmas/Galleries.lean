import Verif.Lemmas.WikiImages
import Verif.Lemmas.Nowiki
import Verif.Lemmas.RefTags
import Verif.Lemmas.Padding

/-!
# Galleries and image maps
-/

namespace Verif.Model
open Verif.Go Verif.Spec Verif.Lemmas Verif.Props
open scoped List

/-! ### Comparison without regard to case -/

theorem foldPrefix_prefix {p : Str} (hp : (0x73 : Byte) ∉ p) : ∀ {s r : Str}, foldPrefix p s = some r → p <+: lowered s := by
  induction p with
  | nil => intros; simp
  | cons c p ih =>
    intro s r h
    cases s with
    | nil => simp [foldPrefix] at h
    | cons b s =>
      rw [foldPrefix.eq_def] at h
      simp only at h
      split at h
      · rename_i hb
        show c :: p <+: lowerByte b :: lowered s
        rw [hb, List.cons_prefix_cons]
        exact ⟨rfl, ih (fun hm => hp (by simp [hm])) h⟩
      · rw [if_neg (fun hc => hp (by simp [hc.1]))] at h
        cases h

theorem foldPrefix_none {p s : Str} (hp : (0x73 : Byte) ∉ p) (h : ¬ p <+: lowered s) : foldPrefix p s = none := by
  cases hf : foldPrefix p s with
  | none => rfl
  | some r => exact absurd (foldPrefix_prefix hp hf) h

theorem closing_iff (s : Str) : equalsIgnoreCase (s.take 10) b!"</gallery>" = true ↔ b!"</gallery>" <+: lowered s :=
  take_same_iff (tag := b!"</gallery>") (by decide)

theorem matchTag_tag {tag attributes after : Str} (ha : ∀ c ∈ attributes, c ∉ b!">\n") :
    matchTag (b!"<" ++ lowered tag) (b!"<" ++ tag ++ attributes ++ b!">" ++ after) = some after := by
  have e : b!"<" ++ lowered tag = lowered (b!"<" ++ tag) := by rw [lowered_append]; rfl
  rw [matchTag, e, List.append_assoc, List.append_assoc, foldPrefix_lowered _ rfl]
  simp only
  have hc : cut b!">" (attributes ++ (b!">" ++ after)) = some (attributes, after) :=
    cut_single (c := (0x3E : Byte)) _ (fun hm => ha _ hm (by decide))
  rw [hc]
  simp only
  rw [if_neg (fun hm => ha _ hm (by decide))]

theorem noFrameWord {s : Str} (h1 : ¬ b!"mini" <:+: lowered s) (h2 : ¬ b!"thumb" <:+: lowered s) : hasNonInlineParameter s = false := by
  unfold hasNonInlineParameter
  induction s with
  | nil => decide
  | cons c s ih =>
    rw [matchesSomewhere]
    have e : lowered (c :: s) = lowerByte c :: lowered s := rfl
    rw [ih (fun hi => h1 (e ▸ hi.trans (List.suffix_cons _ _).isInfix)) (fun hi => h2 (e ▸ hi.trans (List.suffix_cons _ _).isInfix)), Bool.or_false]
    simp only [imageNonInlineParameters, List.any_cons, List.any_nil, Bool.or_false]
    rw [foldPrefix_none (by decide) (fun hp => h1 hp.isInfix), foldPrefix_none (by decide) (fun hp => h2 hp.isInfix)]
    rfl

/-! ### Entries -/

/-- The part in front of the first vertical bar. -/
def FileEntry.front (e : FileEntry) : Str := (match e.space with | none => [] | some s => s ++ b!":") ++ e.name

theorem entry_front {e : FileEntry} (h : e.WellFormed) : (0x7C : Byte) ∉ FileEntry.front e := by
  intro hm
  rw [FileEntry.front, List.mem_append] at hm
  rcases hm with hm | hm
  · cases hs : e.space with
    | none => rw [hs] at hm; cases hm
    | some s =>
      rw [hs] at hm
      simp only [List.mem_append, List.mem_singleton] at hm
      rcases hm with hm | hm
      · exact h.space s hs _ hm (by decide)
      · exact absurd hm (by decide)
  · exact h.name.2 _ hm (by decide)

theorem split_entry {e : FileEntry} (h : e.WellFormed) : split e.text b!"|" = FileEntry.front e :: (match e.more with | none => [] | some c => split c b!"|") := by
  have e1 : e.text = FileEntry.front e ++ (match e.more with | none => [] | some c => b!"|" ++ c) := rfl
  rw [e1]
  cases e.more with
  | none => simp only [List.append_nil]; exact split_singleton_of_not_mem (entry_front h)
  | some c => exact split_singleton_append c (entry_front h)

theorem escape_entry (env : ParserEnv) {e : FileEntry} (h : e.WellFormed) {content : Str} {more : List Str}
    (hs : split content b!"|" = FileEntry.front e :: more) : escapeImages env content = if UnwantedFile env e.name then pure [] else (do
      addImage (e.file env)
      pure (join b!"|" (e.file env :: more))) := by
  rw [escapeImages_eq env _ _ _ hs, FileEntry.front, FileEntry.file]
  cases hsp : e.space with
  | none =>
    simp only [List.nil_append]
    rw [cut_single_none (fun hm => h.name.2 _ hm (by decide))]
    simp only [escapeNamed, ← underscored_eq, if_neg (underscored_ne h.name.1)]
    rfl
  | some s =>
    have hc : cut b!":" (s ++ b!":" ++ e.name) = some (s, e.name) := by
      rw [List.append_assoc]
      exact cut_single (c := (0x3A : Byte)) _ (fun hm => h.space s hsp _ hm (by decide))
    simp only
    rw [hc]
    simp only [escapeNamed, ← underscored_eq, if_neg (underscored_ne h.name.1)]
    rfl

theorem join_more (x : Str) (more : Option Str) : join b!"|" (x :: (match more with | none => [] | some c => split c b!"|")) =
    x ++ (match more with | none => [] | some c => b!"|" ++ c) := by
  cases more with
  | none => simp [join]
  | some c =>
    simp only
    rw [join_cons_of_ne_nil (split_ne_nil c (by simp)), join_split_self c (by simp)]
    simp

theorem entry_ne {e : FileEntry} (h : e.WellFormed) : e.text ≠ [] := by
  intro he
  have hn := h.name.1
  have : e.name = [] := by
    have e1 : e.text = FileEntry.front e ++ (match e.more with | none => [] | some c => b!"|" ++ c) := rfl
    rw [e1, FileEntry.front] at he
    simp only [List.append_eq_nil_iff] at he
    exact he.1.2
  rw [this] at hn
  exact hn rfl

theorem galleryImage_entry (env : ParserEnv) {e : FileEntry} (h : e.WellFormed) (h1 : ¬ b!"mini" <:+: lowered e.text) (h2 : ¬ b!"thumb" <:+: lowered e.text) :
    galleryImage env e.text = writtenImage env e b!"|mini" := by
  rw [galleryImage, writtenImage, noFrameWord h1 h2, if_neg (by simp), split_entry h, List.headD_cons, List.tail_cons]
  have hs : split (join b!"|" (FileEntry.front e :: b!"mini" :: (match e.more with | none => [] | some c => split c b!"|"))) b!"|" =
      FileEntry.front e :: b!"mini" :: (match e.more with | none => [] | some c => split c b!"|") := by
    refine split_join_singleton (by simp) ?_
    intro p hp
    simp only [List.mem_cons] at hp
    rcases hp with rfl | rfl | hp
    · exact entry_front h
    · decide
    · cases hm : e.more with
      | none => rw [hm] at hp; cases hp
      | some c => rw [hm] at hp; exact not_mem_of_mem_split_singleton hp
  rw [escape_entry env h hs]
  split
  · rfl
  · rw [bind_assoc]
    simp only [pure_bind]
    rw [join_cons_of_ne_nil (p := e.file env) (by simp), join_more]
    rw [if_pos (by simp [FileEntry.file])]
    simp [List.append_assoc]
    rfl

/-! ### Galleries -/

theorem galleryLines_entries (env : ParserEnv) (entries : List (Str × FileEntry × Str)) (h : ∀ e ∈ entries, Padding e.1 ∧ Padding e.2.2 ∧ e.2.1.WellFormed ∧
    ¬ b!"mini" <:+: lowered e.2.1.text ∧ ¬ b!"thumb" <:+: lowered e.2.1.text) (rest : List Str) :
    galleryLines env (entries.map (fun e => e.1 ++ e.2.1.text ++ e.2.2) ++ rest) true = (do
      let images ← writtenEntries env (entries.map fun e => e.2.1)
      let r ← galleryLines env rest true
      pure (images ++ r)) := by
  induction entries with
  | nil => simp [writtenEntries]
  | cons e entries ih =>
    obtain ⟨p, e, q⟩ := e
    obtain ⟨hp, hq, hw, h1, h2⟩ := h (p, e, q) (by simp)
    simp only at hp hq hw h1 h2
    have ht : trimSpace (p ++ e.text ++ q) = e.text := trimSpace_pad hp hq hw.trimmed
    have hlt : ∀ t, ¬ 0x3C :: t <+: lowered e.text := by
      intro t hpre
      obtain ⟨c, s, hcs⟩ := List.exists_cons_of_ne_nil (entry_ne hw)
      rw [hcs] at hpre
      have hpre : 0x3C :: t <+: lowerByte c :: lowered s := hpre
      rw [List.cons_prefix_cons] at hpre
      refine hw.noTag ?_
      have : c = 0x3C := by
        have hc := hpre.1
        unfold lowerByte at hc
        split at hc
        · rename_i hr
          simp only [Bool.and_eq_true, decide_eq_true_eq] at hr
          have h3 := UInt8.le_iff_toNat_le.mp hr.1
          have h4 := UInt8.le_iff_toNat_le.mp hr.2
          have h5 := congrArg UInt8.toNat hc
          rw [UInt8.toNat_add] at h5
          simp at h3 h4 h5
          omega
        · exact hc.symm
      rw [hcs, this]
      simp
    rw [List.map_cons, List.cons_append, galleryLines]
    simp only
    rw [ht, if_neg (by rw [closing_iff]; exact hlt _)]
    have hm : matchGallery e.text = none := by
      rw [matchGallery, matchTag, foldPrefix_none (by decide) (hlt _)]
    rw [hm]
    simp only [if_true]
    rw [if_neg (entry_ne hw), ih (fun x hx => h x (by simp [hx])), galleryImage_entry env hw h1 h2]
    rw [List.map_cons, writtenEntries]
    simp [bind_assoc]

theorem galleryLines_closing (env : ParserEnv) {closing : Str} (h : lowered (trimSpace closing) = b!"</gallery>") (rest : List Str) :
    galleryLines env (closing :: rest) true = galleryLines env rest false := by
  have he : equalsIgnoreCase (trimSpace closing) b!"</gallery>" = true := by
    unfold equalsIgnoreCase
    rw [beq_iff_eq]
    exact h
  rw [galleryLines]
  simp only
  rw [if_pos ((closing_iff _).mpr (h ▸ List.prefix_rfl)), if_pos he]

theorem galleryLines_opening (env : ParserEnv) {opening : Str} (h : OpeningTag b!"gallery" opening) (rest : List Str) :
    galleryLines env (opening :: rest) false = galleryLines env rest true := by
  obtain ⟨before, tag, attributes, after, hb, ha, htag, hat, rfl⟩ := h
  have ht : trimSpace (before ++ b!"<" ++ tag ++ attributes ++ b!">" ++ after) = b!"<" ++ tag ++ attributes ++ b!">" := by
    have e : before ++ b!"<" ++ tag ++ attributes ++ b!">" ++ after = before ++ (b!"<" ++ tag ++ attributes ++ b!">") ++ after := by simp
    rw [e]
    refine trimSpace_pad hb ha ?_
    have e1 : b!"<" ++ tag ++ attributes ++ b!">" = 0x3C :: (tag ++ attributes ++ b!">") := by simp
    rw [e1]
    have := trimSpace_front (x := 0x3C) (by decide) (p := []) (by intro c hc; cases hc) (tag ++ attributes ++ b!">")
    rw [List.nil_append] at this
    rw [this]
    have := trimSpaceRight_visible (x := 0x3E) (by decide) (tag ++ attributes) []
    rw [trimSpaceRight_nil] at this
    rw [this]
  rw [galleryLines]
  simp only
  rw [ht, if_neg]
  · have hm := matchTag_tag (tag := tag) (attributes := attributes) (after := []) hat
    rw [htag, List.append_nil] at hm
    rw [show matchGallery (b!"<" ++ tag ++ attributes ++ b!">") = some [] from hm]
    simp
  · rw [closing_iff]
    intro hp
    have e : lowered (b!"<" ++ tag ++ attributes ++ b!">") = 0x3C :: 0x67 :: (b!"allery" ++ lowered (attributes ++ b!">")) := by
      rw [List.append_assoc, lowered_append, lowered_append, htag]
      rfl
    rw [e, List.cons_prefix_cons, List.cons_prefix_cons] at hp
    exact absurd hp.2.1 (by decide)

theorem galleryLines_lines (env : ParserEnv) (ls : List Str) (h : ∀ l ∈ ls, ¬ b!"<gallery" <+: lowered (trimSpace l) ∧ ¬ b!"</gallery>" <+: lowered (trimSpace l) ∧ 0x0A ∉ l)
    (rest : List Str) : galleryLines env (ls ++ rest) false = (do
      let r ← galleryLines env rest false
      pure (ls ++ r)) := by
  induction ls with
  | nil => simp
  | cons l ls ih =>
    obtain ⟨h1, h2, -⟩ := h l (by simp)
    rw [List.cons_append, galleryLines]
    simp only
    rw [if_neg (by rw [closing_iff]; exact h2)]
    have hm : matchGallery (trimSpace l) = none := by
      rw [matchGallery, matchTag, foldPrefix_none (by decide) h1]
    rw [hm]
    simp only [Bool.false_eq_true, if_false]
    rw [ih (fun x hx => h x (by simp [hx])), bind_assoc]
    simp

theorem galleryLines_parts (env : ParserEnv) (parts : List GalleryPart) (h : ∀ p ∈ parts, p.WellFormed) :
    galleryLines env (parts.flatMap GalleryPart.source) false = writtenGalleries env parts := by
  induction parts with
  | nil => rfl
  | cons p parts ih =>
    have ih := ih fun x hx => h x (by simp [hx])
    have hp := h p (by simp)
    rw [List.flatMap_cons]
    cases p with
    | lines ls =>
      show galleryLines env (ls ++ _) false = _
      rw [galleryLines_lines env ls hp, ih]
      rfl
    | gallery g =>
      show galleryLines env (g.opening :: g.entries.map (fun e => e.1 ++ e.2.1.text ++ e.2.2) ++ [g.closing] ++ _) false = _
      rw [List.append_assoc, List.cons_append, galleryLines_opening env hp.opening, galleryLines_entries env g.entries hp.entries, List.cons_append, List.nil_append,
        galleryLines_closing env hp.closing.1, ih]
      rfl

/-! ### Image maps -/

theorem imageMap_areas (env : ParserEnv) (areas : List Str) (h : ∀ l ∈ areas, lowered l ≠ b!"</imagemap>" ∧ 0x0A ∉ l) (rest : List Str) :
    imageMapLines env (areas ++ rest) true = imageMapLines env rest true := by
  induction areas with
  | nil => rfl
  | cons l ls ih =>
    have he : equalsIgnoreCase l b!"</imagemap>" = false := by
      unfold equalsIgnoreCase
      rw [beq_eq_false_iff_ne]
      exact (h l (by simp)).1
    rw [List.cons_append, imageMapLines.eq_def]
    simp only [he, Bool.false_eq_true, if_false, if_true]
    exact ih fun x hx => h x (by simp [hx])

theorem imageMap_closing (env : ParserEnv) {l : Str} (h : lowered l = b!"</imagemap>") (rest : List Str) (w : Bool) :
    imageMapLines env (l :: rest) w = imageMapLines env rest false := by
  have he : equalsIgnoreCase l b!"</imagemap>" = true := by
    unfold equalsIgnoreCase
    rw [beq_iff_eq]
    exact h
  rw [imageMapLines.eq_def]
  simp only [he, if_true]

theorem imageMap_map (env : ParserEnv) {m : ImageMap} (h : m.WellFormed env) (rest : List Str) :
    imageMapLines env (m.lines ++ rest) false = (do
      let image ← writtenImage env m.image []
      let r ← imageMapLines env rest false
      pure (image :: r)) := by
  obtain ⟨tag, attributes, after, ha, htag, hat, ho⟩ := h.opening
  have hm : matchImagemap m.opening = some after := by
    have hm := matchTag_tag (tag := tag) (attributes := attributes) (after := after) hat
    rw [htag] at hm
    rw [ho]
    exact hm
  have he : equalsIgnoreCase m.opening b!"</imagemap>" = false := by
    unfold equalsIgnoreCase
    rw [beq_eq_false_iff_ne]
    intro hl
    have e : lowered m.opening = 0x3C :: 0x69 :: (b!"magemap" ++ lowered (attributes ++ (b!">" ++ after))) := by
      rw [ho, List.append_assoc, List.append_assoc, lowered_append, lowered_append, htag]
      rfl
    rw [show List.map lowerByte m.opening = lowered m.opening from rfl, e] at hl
    simp only [List.map_cons, List.cons.injEq] at hl
    exact absurd hl.2.1 (by decide)
  have hpad : trimSpace after = [] := by
    have := trimSpace_pad (p := after) (b := []) (q := []) ha (by intro c hc; cases hc) (by decide)
    simpa using this
  rw [ImageMap.lines, List.append_assoc, List.cons_append, List.cons_append, imageMapLines.eq_def]
  simp only [he, hm, hpad, Bool.false_eq_true, if_false, if_true]
  rw [escape_entry env h.image.1 (split_entry h.image.1), if_neg h.image.2, List.cons_append, List.nil_append,
    imageMap_areas env m.areas h.areas, imageMap_closing env h.closing, writtenImage, if_neg h.image.2]
  simp only [bind_assoc, pure_bind, join_more, List.append_nil, List.append_assoc]
  rfl

theorem imageMap_lines (env : ParserEnv) (ls : List Str) (h : ∀ l ∈ ls, ¬ b!"<imagemap" <+: lowered l ∧ lowered l ≠ b!"</imagemap>" ∧ 0x0A ∉ l)
    (rest : List Str) : imageMapLines env (ls ++ rest) false = (do
      let r ← imageMapLines env rest false
      pure (ls ++ r)) := by
  induction ls with
  | nil => simp
  | cons l ls ih =>
    obtain ⟨h1, h2, -⟩ := h l (by simp)
    have he : equalsIgnoreCase l b!"</imagemap>" = false := by
      unfold equalsIgnoreCase
      rw [beq_eq_false_iff_ne]
      exact h2
    have hm : matchImagemap l = none := by rw [matchImagemap, matchTag, foldPrefix_none (by decide) h1]
    rw [List.cons_append, imageMapLines.eq_def]
    simp only [he, hm, Bool.false_eq_true, if_false]
    rw [ih (fun x hx => h x (by simp [hx])), bind_assoc]
    simp

theorem imageMap_parts (env : ParserEnv) (parts : List MapPart) (h : ∀ p ∈ parts, p.WellFormed env) :
    imageMapLines env (parts.flatMap MapPart.source) false = writtenMaps env parts := by
  induction parts with
  | nil => rfl
  | cons p parts ih =>
    have ih := ih fun x hx => h x (by simp [hx])
    have hp := h p (by simp)
    rw [List.flatMap_cons]
    cases p with
    | lines ls =>
      show imageMapLines env (ls ++ _) false = _
      rw [imageMap_lines env ls hp, ih]
      rfl
    | map m =>
      show imageMapLines env (m.lines ++ _) false = _
      rw [imageMap_map env hp, ih]
      rfl

end Verif.Model
