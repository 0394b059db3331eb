import Verif.Lemmas.AtomLinks
import Verif.Lemmas.WikiImages
import Verif.Props.ImageSyntax

/-!
# The images of a line
-/

namespace Verif.Model
open Verif.Go Verif.Spec Verif.Lemmas Verif.Props
open scoped List

/-! ### Captions -/

theorem srcs_atoms (c : List CapAtom) : srcs (c.map CapAtom.atom) = capSrc c := by
  induction c with
  | nil => rfl
  | cons a c ih => rw [List.map_cons, srcs_cons, capSrc_cons, ih, CapAtom.atom_src]

theorem CapAtom.atom_isText (a : CapAtom) : a.atom.isText = a.isText := by cases a <;> rfl

theorem leadText_atoms (c : List CapAtom) : leadText (c.map CapAtom.atom) = capLead c := by
  rw [leadText, capLead, List.takeWhile_map, srcs_atoms]
  congr 2
  funext a
  exact CapAtom.atom_isText a

theorem trailText_atoms (c : List CapAtom) : trailText (c.map CapAtom.atom) = capTrail c := by
  rw [trailText, capTrail, ← List.map_reverse, List.takeWhile_map, ← List.map_reverse, srcs_atoms]
  congr 3
  funext a
  exact CapAtom.atom_isText a

theorem CapOk.edges {env : ParserEnv} {c : List CapAtom} (h : CapOk env c) : EdgesOk (c.map CapAtom.atom) :=
  ⟨by rw [leadText_atoms]; exact h.lead, by rw [leadText_atoms]; exact h.start, by rw [trailText_atoms]; exact h.trail⟩

theorem CapOk.atoms {env : ParserEnv} {c : List CapAtom} (h : CapOk env c) : ∀ a ∈ c.map CapAtom.atom, a.Ok env := by
  intro a ha
  obtain ⟨x, hx, rfl⟩ := List.mem_map.mp ha
  exact (h.ok x hx).atom

theorem atoms_plain {c : List CapAtom} (h : ∀ a ∈ c, a.isLink = false) : ∀ a ∈ c.map CapAtom.atom, a.isPlain = true := by
  intro a ha
  obtain ⟨x, hx, rfl⟩ := List.mem_map.mp ha
  have := h x hx
  cases x <;> simp_all [CapAtom.isLink, CapAtom.atom, Atom.isPlain]

theorem capSrc_oneLine {env : ParserEnv} {c : List CapAtom} (h : CapOk env c) : (0x0A : Byte) ∉ capSrc c := by
  rw [mem_capSrc]
  rintro ⟨a, ha, hm⟩
  exact (h.ok a ha).not_mem (by decide) hm

theorem CapOk.braces {env : ParserEnv} {c : List CapAtom} (h : CapOk env c) : NoBraces (c.map CapAtom.atom) := by
  intro t ht
  obtain ⟨x, hx, e⟩ := List.mem_map.mp ht
  have := h.ok x hx
  cases x <;> cases e
  exact this.2.2.2.1

theorem capSrc_calm {env : ParserEnv} {c : List CapAtom} (h : CapOk env c) (hl : ∀ a ∈ c, a.isLink = false) : CalmLine (capSrc c) := by
  have := calm_atoms h.atoms h.braces (atoms_plain hl) h.edges (by rw [srcs_atoms]; exact capSrc_oneLine h) 0
  rwa [srcs_atoms] at this

theorem capSrc_lead (c : List CapAtom) (h : ∀ a ∈ c, a.isLink = false) : ∃ r, capSrc c = capLead c ++ r ∧ (r = [] ∨ ∃ r', r = 0x24 :: r') := by
  induction c with
  | nil => exact ⟨[], rfl, Or.inl rfl⟩
  | cons a c ih =>
    obtain ⟨r, e, hr⟩ := ih fun x hx => h x (by simp [hx])
    have ha := h a (by simp)
    cases a with
    | text t =>
      refine ⟨r, ?_, hr⟩
      rw [capSrc_cons, e, capLead, capLead, List.takeWhile_cons, if_pos (by rfl), capSrc_cons, List.append_assoc]
    | mark m => exact ⟨capSrc (.mark m :: c), by simp [capLead, CapAtom.isText], Or.inr ⟨_, rfl⟩⟩
    | key type n => exact ⟨capSrc (.key type n :: c), by simp [capLead, CapAtom.isText], Or.inr ⟨_, rfl⟩⟩
    | link l => simp [CapAtom.isLink] at ha

theorem capSrc_trail (c : List CapAtom) (h : ∀ a ∈ c, a.isLink = false) : ∃ r, capSrc c = r ++ capTrail c ∧ (r = [] ∨ ∃ r', r = r' ++ [0x24]) := by
  induction c using List.reverseRecOn with
  | nil => exact ⟨[], rfl, Or.inl rfl⟩
  | append_singleton c a ih =>
    obtain ⟨r, e, hr⟩ := ih fun x hx => h x (by simp [hx])
    have ha := h a (by simp)
    cases a with
    | text t =>
      refine ⟨r, ?_, hr⟩
      rw [capSrc_append, e, capTrail, capTrail, List.reverse_append]
      simp only [List.reverse_cons, List.reverse_nil, List.nil_append, List.cons_append]
      rw [List.takeWhile_cons, if_pos (by rfl), List.reverse_cons, capSrc_append, List.append_assoc]
    | mark m =>
      refine ⟨capSrc (c ++ [.mark m]), by simp [capTrail, CapAtom.isText], Or.inr ⟨capSrc c ++ (b!"$$" ++ m.name ++ b!"$"), ?_⟩⟩
      simp [CapAtom.src, Element.code]
    | key type n =>
      refine ⟨capSrc (c ++ [.key type n]), by simp [capTrail, CapAtom.isText], Or.inr ⟨capSrc c ++ (b!"$$TOKEN_" ++ type ++ b!"_" ++ decimal n ++ b!"$"), ?_⟩⟩
      simp [CapAtom.src, tokenKey]
    | link l => simp [CapAtom.isLink] at ha

theorem capSrc_prefix {c : List CapAtom} (h : ∀ a ∈ c, a.isLink = false) {p : Str} (hp : (0x24 : Byte) ∉ p) (hx : p <+: capSrc c) : p <+: capLead c := by
  obtain ⟨r, e, hr⟩ := capSrc_lead c h
  rw [e] at hx
  rcases hr with rfl | ⟨r', rfl⟩
  · simpa using hx
  · exact prefix_of_prefix_sep hp hx

theorem capSrc_suffix {c : List CapAtom} (h : ∀ a ∈ c, a.isLink = false) {p : Str} (hp : (0x24 : Byte) ∉ p) (hx : p <:+ capSrc c) : p <:+ capTrail c := by
  obtain ⟨r, e, hr⟩ := capSrc_trail c h
  rw [e] at hx
  rcases hr with rfl | ⟨r', rfl⟩
  · simpa using hx
  · exact suffix_of_suffix_sep (b := r') hp (by simpa using hx)

theorem captionText_cap {env : ParserEnv} {c : List CapAtom} (hr : ReadsImages env) (h : CapOk env c) (hl : ∀ a ∈ c, a.isLink = false) :
    CaptionText env (capSrc c) := by
  refine ⟨⟨fun hx => h.free.1 (capSrc_prefix hl (by decide) hx), fun hx => h.free.2.1 (capSrc_prefix hl (by decide) hx),
    fun hx => h.free.2.2 (capSrc_suffix hl (by decide) hx)⟩, ?_, ?_⟩
  · rintro ⟨p, hp, hx⟩
    exact h.option ⟨p, hp, capSrc_prefix hl (hr.options p hp) hx⟩
  · rw [mem_capSrc]
    rintro ⟨a, ha, hm⟩
    have hok := h.ok a ha
    have hla := hl a ha
    cases a with
    | text t => exact hok.2.1 hm
    | mark m => exact not_mem_keyed (marker_chars m) (by decide) (by decide) hm
    | key type n => exact not_mem_keyed (tokenKey_chars n hok.2) (by decide) (by decide) hm
    | link l => simp [CapAtom.isLink] at hla

theorem capSrc_linkText {env : ParserEnv} {c : List CapAtom} (h : CapOk env c) (hl : ∀ a ∈ c, a.isLink = false) :
    ∃ d : LinkText, d.WellFormed ∧ d.text = capSrc c := by
  refine linkText_plain ?_ ?_
  · rw [mem_capSrc]
    rintro ⟨a, ha, hm⟩
    exact (h.ok a ha).no_bracket (hl a ha) hm
  · rw [mem_capSrc]
    rintro ⟨a, ha, hm⟩
    have hok := h.ok a ha
    have hla := hl a ha
    cases a with
    | text t => exact TextOk.not_mem hok.1 (by decide) hm
    | mark m => exact not_mem_keyed (marker_chars m) (by decide) (by decide) hm
    | key type n => exact not_mem_keyed (tokenKey_chars n hok.2) (by decide) (by decide) hm
    | link l => simp [CapAtom.isLink] at hla

/-! ### The text between the brackets -/

theorem front_ne {env : ParserEnv} {i : WikiImage} (h : i.WellFormed env) : WikiImage.front i ≠ [] := by
  intro e
  rw [WikiImage.front, List.append_eq_nil_iff] at e
  exact h.name.1 (by rw [e.1]; decide)

theorem space_no_bar : ∀ sp ∈ spaceChars, (0x7C : Byte) ∉ sp := by decide

/-- The whole text of an image is not changed by the tokenizer. -/
theorem inner_calm {env : ParserEnv} {i : WikiImage} {file : Str} {cap : Option (List CapAtom)} (h : ImageOk env i file cap)
    (hl : (Atom.image i file cap).linksDone) : CalmLine (withCap i cap).inner := by
  rw [withCap_inner]
  have hf : WikiImage.front i ≠ [] := front_ne (i := withCap i cap) h.image
  have hmem : ∀ {c : Byte}, c ∈ b!"{<\n" → c ∉ WikiImage.front i ++ capText cap := by
    intro c hc hm
    refine h.not_mem hc (c := c) ?_
    rw [Atom.src, frontOf]
    simp only [List.mem_append] at hm ⊢
    tauto
  have hfc : ∀ c ∈ WikiImage.front i, c ∉ b!"[]" := front_free (i := withCap i cap) h.image
  have hbr : (0x5B : Byte) ∉ WikiImage.front i ++ capText cap := by
    simp only [List.mem_append, not_or]
    refine ⟨fun hm => hfc _ hm (by decide), ?_⟩
    cases cap with
    | none => simp [capText]
    | some c =>
      simp only [capText, List.mem_append, not_or]
      refine ⟨by decide, ?_⟩
      rw [mem_capSrc]
      rintro ⟨a, ha, hm⟩
      exact ((h.cap c rfl).ok a ha).no_bracket (hl a ha) hm
  have hpre : ∀ sp ∈ spaceChars, ¬ sp <+: WikiImage.front i ++ capText cap := by
    intro sp hs hp
    cases cap with
    | none => exact h.lead sp hs (by simpa [capText] using hp)
    | some c => exact h.lead sp hs (prefix_of_prefix_sep (c := (0x7C : Byte)) (b := capSrc c) (space_no_bar sp hs) (by simpa [capText] using hp))
  have hsuf : ∀ sp ∈ spaceChars, ¬ sp <:+ WikiImage.front i ++ capText cap := by
    intro sp hs hp
    cases cap with
    | none => exact h.trail sp hs (by simpa [capText] using hp)
    | some c =>
      have h1 := suffix_of_suffix_sep (c := (0x7C : Byte)) (a := capSrc c) (b := WikiImage.front i) (space_no_bar sp hs) (by simpa [capText] using hp)
      rw [← srcs_atoms] at h1
      exact (h.cap c rfl).edges.suffix sp hs h1
  have htrim := trimSpace_of_clean hpre hsuf
  have hhead : ∀ x, (WikiImage.front i ++ capText cap).head? = some x → x ∉ b!"*#;:=" := by
    intro x hx
    refine h.start x ?_
    obtain ⟨d, r, e⟩ := List.exists_cons_of_ne_nil hf
    rw [e] at hx ⊢
    simpa using hx
  obtain ⟨h1, -⟩ := capText_no_quotes (env := env) fun c hc => (h.cap c hc).ok
  have hq : ¬ b!"''" <:+: WikiImage.front i ∧ (WikiImage.front i).getLast? ≠ some 0x27 := by
    have e : frontOf i = (i.space ++ b!":") ++ WikiImage.front i := rfl
    refine ⟨fun hi => h.words.pairs 0x27 (by decide) (hi.trans (e ▸ (List.suffix_append _ _).isInfix)), fun hx => h.words.last 0x27 (by decide) ?_⟩
    rw [e, List.getLast?_append, hx]
    rfl
  refine ⟨hmem (by decide), ?_, ?_, ?_, hbr, fun hi => hmem (c := 0x7B) (by decide) (hi.subset (by simp)), tagFree_of_no_lt (hmem (by decide)),
    no_pair_append hq.1 (Or.inl hq.2) h1⟩
  · rw [htrim]
    intro c hc hcc
    exact hhead c hc (by revert hcc; simp only [List.mem_cons, List.not_mem_nil, or_false]; tauto)
  · rw [htrim]
    rintro ⟨⟨t, e⟩, -⟩
    exact hhead 0x3D (by rw [← e]; rfl) (by decide)
  · rw [htrim]
    exact fun hi => hmem (c := 0x7B) (by decide) (hi.subset (by simp))

theorem image_tokenizable {env : ParserEnv} {i : WikiImage} {file : Str} {cap : Option (List CapAtom)} (h : ImageOk env i file cap)
    (hl : (Atom.image i file cap).linksDone) : ∃ k, ∀ n, k ≤ n → (withCap i cap).Tokenizable env (tokenizeContent env n) ∧
      ∀ c, cap = some c → tokenizeContent env n (capSrc c) = pure (capSrc c) := by
  obtain ⟨k, hk⟩ := tokenizeContent_calm env (inner_calm h hl) (by
    rw [withCap_inner]
    intro e
    rw [List.append_eq_nil_iff] at e
    exact front_ne (i := withCap i cap) h.image e.1)
  cases cap with
  | none => exact ⟨k, fun n hn => ⟨hk n hn, by simp⟩⟩
  | some c =>
    have hc := h.cap c rfl
    obtain ⟨k', hk'⟩ := tokenizeContent_calm env (capSrc_calm hc hl) hc.nonEmpty
    refine ⟨max k k', fun n hn => ⟨⟨capSrc_linkText hc hl, ?_, ?_⟩, ?_⟩⟩
    · rw [hk n (by omega), hk' n (by omega), pure_bind]
      rfl
    · intro s c' s' hs
      rw [hk' n (by omega)] at hs
      simp only [TokM.pure_eq, Option.some.injEq, Res.ok.injEq, Prod.mk.injEq] at hs
      rw [← hs.1]
      exact ⟨captionText_cap h.reads hc hl, hk' n (by omega)⟩
    · rintro _ ⟨⟩
      exact hk' n (by omega)

/-! ### The images of a text -/

def Atom.isImage : Atom → Bool
  | .image _ _ _ => true
  | _ => false

def groupImages : List Atom → Str × List (WikiImage × Str)
  | [] => ([], [])
  | .image i _ cap :: rest => ([], (withCap i cap, (groupImages rest).1) :: (groupImages rest).2)
  | a :: rest => (a.src ++ (groupImages rest).1, (groupImages rest).2)

theorem groupImages_other {a : Atom} (h : a.isImage = false) (rest : List Atom) :
    groupImages (a :: rest) = (a.src ++ (groupImages rest).1, (groupImages rest).2) := by
  cases a with
  | image _ _ _ => simp [Atom.isImage] at h
  | _ => rfl

theorem groupImages_spec {env : ParserEnv} (as : List Atom) (h : ∀ a ∈ as, a.Ok env) (hl : ∀ a ∈ as, a.linksDone) (hr : NoRefs as) :
    srcs as = (groupImages as).1 ++ imagesText (groupImages as).2 ∧ LinkFree (groupImages as).1 ∧
      ∃ k, ∀ n, k ≤ n → ∀ x ∈ (groupImages as).2, x.1.WellFormed env ∧ x.1.Tokenizable env (tokenizeContent env n) ∧ LinkFree x.2 := by
  induction as with
  | nil => exact ⟨rfl, linkFree_nil, 0, by simp [groupImages]⟩
  | cons a as ih =>
    obtain ⟨h1, h2, k, h3⟩ := ih (fun x hx => h x (by simp [hx])) (fun x hx => hl x (by simp [hx])) fun x hx => hr x (by simp [hx])
    have ha := h a (by simp)
    have hla := hl a (by simp)
    by_cases hi : a.isImage = true
    · cases a with
      | image i file cap =>
        obtain ⟨k', hk'⟩ := image_tokenizable ha hla
        refine ⟨?_, linkFree_nil, max k k', ?_⟩
        · rw [srcs_cons, h1, groupImages, imagesText, image_src]; simp
        · intro n hn x hx
          rw [groupImages] at hx
          rcases List.mem_cons.mp hx with rfl | hx
          · exact ⟨ImageOk.image ha, (hk' n (by omega)).1, h2⟩
          · exact h3 n (by omega) x hx
      | _ => simp [Atom.isImage] at hi
    · rw [groupImages_other (by simpa using hi)]
      refine ⟨by rw [srcs_cons, h1]; simp, ?_, k, h3⟩
      by_cases hp : a.isPlain = true ∨ a.isMath = true
      · exact linkFree_append (ha.no_bracket hp) h2
      · cases a with
        | web url label =>
          have : (0x5B : Byte) ∉ (Bracket.web url label).inner := Words.not_mem ha.2.1 (by decide)
          have := linkFree_web (x := (Bracket.web url label).inner ++ b!"]") (t := (groupImages as).1) (by simp [this]) (by simp) h2
          simpa [Atom.src] using this
        | link l => exact hla.elim
        | image _ _ _ => simp [Atom.isImage] at hi
        | ref _ _ _ _ => have := hr _ (List.mem_cons_self ..); simp [Atom.isRef] at this
        | _ => simp [Atom.isPlain, Atom.isMath] at hp

/-! ### The tokens of images -/

theorem sizeStyle_eq (x y : Int) : expandSizeTemplate x y = sizeStyle (x, y) := by
  rw [expandSizeTemplate, sizeStyle]
  by_cases hx : x = -1 <;> by_cases hy : y = -1 <;> simp [hx, hy, join]

theorem image_expand {env : ParserEnv} {html : HtmlEnv} {tokens : List (Str × Token)} {i : WikiImage} {file : Str} {cap : Option (List CapAtom)}
    (h : ImageOk env i file cap) (hl : (Atom.image i file cap).linksDone) {x : Str} (hx : AtomShows html tokens (.image i file cap) x) :
    ∃ k, ∀ fuel, k ≤ fuel → expandToken html (expandString html tokens fuel) ((withCap i cap).token env).2 = pure x := by
  obtain ⟨ch, h1, rfl⟩ := hx
  have hfile : (withCap i cap).file env = file := h.file.symm
  have hopt : (withCap i cap).options = i.options := rfl
  have hb : (withCap i cap).block = i.block := rfl
  have hfr : (withCap i cap).framed = i.framed := rfl
  rw [WikiImage.token, hb, hfr, hfile, hopt]
  by_cases hblk : i.block = true
  · rw [if_pos hblk]
    have hcap : ∃ k, ∀ fuel, k ≤ fuel → expandString html tokens fuel (if i.framed then (withCap i cap).caption.getD [] else []) =
        pure (if i.framed then ch else []) := by
      have hnil : ∃ k, ∀ fuel, k ≤ fuel → expandString html tokens fuel [] = pure [] := by
        simpa using expandString_atoms (env := env) (html := html) (tokens := tokens) (as := []) (by simp) (by simp) LineShows.nil
      by_cases hf : i.framed = true
      · simp only [if_pos hf]
        cases cap with
        | none =>
          obtain rfl : ch = [] := h1
          exact hnil
        | some c =>
          have hc := h.cap c rfl
          obtain ⟨hs, h2, rfl⟩ := h1
          have := expandString_atoms (env := env) (html := html) (tokens := tokens) hc.atoms (atoms_plain hl)
            ⟨hs, by rw [List.forall₂_map_left_iff]; exact h2.imp fun _ _ h => h.atom, rfl⟩
          rw [srcs_atoms] at this
          exact this
      · simp only [if_neg hf]
        exact hnil
    obtain ⟨k, hk⟩ := hcap
    refine ⟨k, fun fuel hf => ?_⟩
    simp only [expandToken, hk fuel hf, sizeStyle_eq, imageHtml, if_pos hblk]
    simp
  · rw [if_neg hblk]
    refine ⟨0, fun fuel _ => ?_⟩
    simp [expandToken, sizeStyle_eq, imageHtml, if_neg hblk]

theorem image_kind (env : ParserEnv) (i : WikiImage) : (i.token env).1 ≠ [] ∧ ∀ c ∈ (i.token env).1, tokenChar c = true := by
  have h : (i.token env).1 = b!"IMAGE" ∨ (i.token env).1 = b!"IMAGE_INLINE" := by
    rw [WikiImage.token]
    split
    · exact Or.inl rfl
    · exact Or.inr rfl
  rcases h with h | h <;> rw [h] <;> decide

/-- One image becomes a key. -/
theorem image_ends {env : ParserEnv} (html : HtmlEnv) {i : WikiImage} {file : Str} {cap : Option (List CapAtom)} (h : ImageOk env i file cap)
    (hl : (Atom.image i file cap).linksDone) (s : TokState) (hs : KeysCreated s) :
    ∃ n s1, Ends (fun f => tokenizedImage env (tokenizeContent env f) (withCap i cap)) s (tokenKey ((withCap i cap).token env).1 n) s1 ∧ Grows s s1 ∧
      ∀ s', Grows s1 s' → Step env html s'.tokenMap (.image i file cap) (.key ((withCap i cap).token env).1 n) := by
  obtain ⟨k, hk⟩ := image_tokenizable h hl
  have hplaced : ∀ f, k ≤ f → tokenizedImage env (tokenizeContent env f) (withCap i cap) = (do
      addImage (b!"File:" ++ (withCap i cap).file env)
      newToken ((withCap i cap).token env).1 ((withCap i cap).token env).2) := by
    intro f hf
    have hp : placedImage env (withCap i cap) = (do
        addImage (b!"File:" ++ (withCap i cap).file env)
        newToken ((withCap i cap).token env).1 ((withCap i cap).token env).2) := by
      rw [placedImage, if_neg (show ¬ (withCap i cap).Unwanted env from h.wanted)]
    rw [tokenizedImage, ← hp]
    cases cap with
    | none => rfl
    | some c =>
      show (tokenizeContent env f (capSrc c) >>= fun c' => placedImage env _) = _
      rw [(hk f hf).2 c rfl, pure_bind]
      rfl
  obtain ⟨s1, e1, g1, l1⟩ := Ends.newToken ((withCap i cap).token env).1 ((withCap i cap).token env).2
    { s with images := s.images ++ [b!"File:" ++ (withCap i cap).file env] }
  have g0 : Grows s { s with images := s.images ++ [b!"File:" ++ (withCap i cap).file env] } := ⟨Nat.le_refl _, ⟨[], by simp⟩, ⟨_, rfl⟩⟩
  have e0 : Ends (fun _ => addImage (b!"File:" ++ (withCap i cap).file env)) s ()
      { s with images := s.images ++ [b!"File:" ++ (withCap i cap).file env] } := ⟨0, fun _ _ => rfl⟩
  refine ⟨_, s1, Ends.congr ⟨k, hplaced⟩ (e0.bind (g := fun _ _ => newToken ((withCap i cap).token env).1 ((withCap i cap).token env).2) e1), g0.trans g1, ?_⟩
  intro s' g2
  refine Step.toKey rfl (image_kind _ _) ?_
  intro t ht x hx tokens' ht'
  obtain ⟨k, hk⟩ := image_expand h hl (AtomShows.extend hx ht')
  exact ⟨k, _, ht' _ _ (ht _ _ (g2.lookup (g1.keysCreated (g0.keysCreated hs)) l1)), hk⟩

theorem images_step (env : ParserEnv) (html : HtmlEnv) (as : List Atom) (h : ∀ a ∈ as, a.Ok env) (hl : ∀ a ∈ as, a.linksDone) :
    ∀ (s : TokState) (_ : KeysCreated s), ∃ bs s', Ends (fun n => do
        let r ← tokenizedImages env (tokenizeContent env n) (groupImages as).2
        pure ((groupImages as).1 ++ r)) s (srcs bs) s' ∧
      Grows s s' ∧ List.Forall₂ (Step env html s'.tokenMap) as bs ∧ ∀ b ∈ bs, b.isDouble = false := by
  induction as with
  | nil => exact fun s _ => ⟨[], s, Ends.pure _ s, Grows.refl s, .nil, by simp⟩
  | cons a as ih =>
    intro s hs
    have ih := ih (fun x hx => h x (by simp [hx])) (fun x hx => hl x (by simp [hx]))
    have ha := h a (by simp)
    have hla := hl a (by simp)
    by_cases hi : a.isImage = true
    · cases a with
      | image i file cap =>
        obtain ⟨m, s1, e1, g1, st⟩ := image_ends html ha hla s hs
        obtain ⟨bs, s', e2, g2, h2, h3⟩ := ih s1 (g1.keysCreated hs)
        refine ⟨.key ((withCap i cap).token env).1 m :: bs, s', ?_, g1.trans g2, .cons (st s' g2) h2, ?_⟩
        · have e3 := e1.bind (g := fun n key => do
            let r ← (do
              let r ← tokenizedImages env (tokenizeContent env n) (groupImages as).2
              pure ((groupImages as).1 ++ r))
            pure (key ++ r)) (e2.pureBind (tokenKey ((withCap i cap).token env).1 m))
          refine Ends.congr ⟨0, fun n _ => ?_⟩ e3
          simp [groupImages, tokenizedImages]
        · intro b hb
          rcases List.mem_cons.mp hb with rfl | hb
          · rfl
          · exact h3 b hb
      | _ => simp [Atom.isImage] at hi
    · obtain ⟨bs, s', e, g, h2, h3⟩ := ih s hs
      have hi' : a.isImage = false := by simpa using hi
      refine ⟨a :: bs, s', ?_, g, .cons (Step.refl a) h2, ?_⟩
      · refine Ends.congr ⟨0, fun n _ => ?_⟩ (e.pureBind a.src)
        simp [groupImages_other hi']
      · intro b hb
        rcases List.mem_cons.mp hb with rfl | hb
        · cases b with
          | link l => exact hla.elim
          | image _ _ _ => simp [Atom.isImage] at hi
          | _ => rfl
        · exact h3 b hb

/-- All images are replaced by keys. -/
theorem images_pass (env : ParserEnv) (html : HtmlEnv) (as : List Atom) (h : ∀ a ∈ as, a.Ok env) (hl : ∀ a ∈ as, a.linksDone) (hr : NoRefs as) (s : TokState)
    (hs : KeysCreated s) : ∃ bs s', Ends (fun n => parseImages env (tokenizeContent env n) n (srcs as)) s (srcs bs) s' ∧
      Grows s s' ∧ List.Forall₂ (Step env html s'.tokenMap) as bs ∧ ∀ b ∈ bs, b.isDouble = false := by
  obtain ⟨bs, s', e, g, h2, h3⟩ := images_step env html as h hl s hs
  obtain ⟨e1, e2, k, e3⟩ := groupImages_spec as h hl hr
  refine ⟨bs, s', Ends.congr ⟨max k ((groupImages as).2.length + 1), fun n hn => ?_⟩ e, g, h2, h3⟩
  rw [e1]
  by_cases hne : ∃ a ∈ as, a.isImage = true
  · have hri : ReadsImages env := by
      obtain ⟨a, ha, hi⟩ := hne
      have hok := h a ha
      cases a with
      | image i file cap => exact ImageOk.reads hok
      | _ => simp [Atom.isImage] at hi
    exact C60_images_partial env hri.upper hri.file _ _ _ e2 (e3 n (by omega)) n (by omega)
  · have : (groupImages as).2 = [] := by
      clear e1 e2 e3 e h2 h3 hn hr
      induction as with
      | nil => rfl
      | cons a as ih =>
        rw [groupImages_other (by
          have : ¬ a.isImage = true := fun hi => hne ⟨a, by simp, hi⟩
          simpa using this)]
        exact ih (fun x hx => h x (by simp [hx])) (fun x hx => hl x (by simp [hx])) fun ⟨x, hx, hi⟩ => hne ⟨x, by simp [hx], hi⟩
    rw [this]
    have h0 := (e3 n (by omega))
    obtain ⟨m, rfl⟩ : ∃ m, n = m + 1 := ⟨n - 1, by omega⟩
    rw [imagesText, List.append_nil, parseImages, imageLoop, findLinkStart_free _ e2, tokenizedImages, pure_bind, List.append_nil]

end Verif.Model
