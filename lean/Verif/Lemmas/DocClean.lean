import Verif.Lemmas.DocTokens
import Verif.Lemmas.Sections
import Verif.Props.CleanLinks

/-!
# Cleaning an article
-/

namespace Verif.Model
open Verif.Go Verif.Spec Verif.Lemmas Verif.Props
open scoped List

/-! ### Links -/

/-- A part of an article without unwanted links. -/
def KeptPart (env : ParserEnv) (x : Str) : Prop := ∀ t, linkLoop env t 0 = .ok t → linkLoop env (x ++ t) 0 = .ok (x ++ t)

theorem KeptPart.append {env : ParserEnv} {x y : Str} (hx : KeptPart env x) (hy : KeptPart env y) : KeptPart env (x ++ y) := by
  intro t ht
  rw [List.append_assoc]
  exact hx _ (hy t ht)

theorem KeptPart.flatten {env : ParserEnv} (xs : List Str) (h : ∀ x ∈ xs, KeptPart env x) : KeptPart env xs.flatten := by
  induction xs with
  | nil => exact fun t ht => ht
  | cons x xs ih => exact (h x (by simp)).append (ih fun y hy => h y (by simp [hy]))

theorem linkLoop_keep (env : ParserEnv) {c : Byte} {t : Str} (h : ¬ b!"[[" <+: c :: t) (ht : linkLoop env t 0 = .ok t) :
    linkLoop env (c :: t) 0 = .ok (c :: t) := by
  rw [linkLoop_char env c t h, ht]
  rfl

theorem kept_text (env : ParserEnv) {x : Str} (h : (0x5B : Byte) ∉ x) : KeptPart env x := by
  intro t ht
  induction x with
  | nil => exact ht
  | cons c x ih =>
    refine linkLoop_keep env ?_ (ih fun hm => h (by simp [hm]))
    rw [List.cons_prefix_cons]
    rintro ⟨rfl, _⟩
    simp at h

/-- Characters in front of a text. -/
def charsThen : Str → LinkText → LinkText
  | [], d => d
  | c :: t, d => .char c (charsThen t d)

/-- Texts and links (with the text between their brackets). -/
def piecesText : List (Bool × Str) → LinkText
  | [] => .nil
  | (false, t) :: rest => charsThen t (piecesText rest)
  | (true, inner) :: rest => .link (charsThen inner .nil) (piecesText rest)

def linkPieceStr (p : Bool × Str) : Str := if p.1 then b!"[[" ++ p.2 ++ b!"]]" else p.2

theorem charsThen_text (t : Str) (d : LinkText) : (charsThen t d).text = t ++ d.text := by
  induction t with
  | nil => rfl
  | cons c t ih => rw [charsThen, LinkText.text, ih]; rfl

theorem piecesText_text (ps : List (Bool × Str)) : (piecesText ps).text = ps.flatMap linkPieceStr := by
  induction ps with
  | nil => rfl
  | cons p ps ih =>
    obtain ⟨l, t⟩ := p
    cases l
    · rw [piecesText, charsThen_text, ih]; rfl
    · rw [piecesText, LinkText.text, charsThen_text, ih]; simp [LinkText.text, linkPieceStr]

theorem charsThen_ok {t : Str} (h : ∀ c ∈ t, c ∉ b!"[]") {d : LinkText} (hd : d.WellFormed) : (charsThen t d).WellFormed := by
  induction t with
  | nil => exact hd
  | cons c t ih =>
    have hc := h c (by simp)
    refine ⟨?_, ?_, ih fun x hx => h x (by simp [hx])⟩
    · rintro rfl; exact hc (by decide)
    · rintro rfl; exact hc (by decide)

theorem charsThen_start {t : Str} (h : t ≠ []) (d : LinkText) : (charsThen t d).startsWithBracket = false := by
  cases t with
  | nil => exact absurd rfl h
  | cons c t => rfl

theorem piecesText_ok {ps : List (Bool × Str)} (h : ∀ p ∈ ps, ∀ c ∈ p.2, c ∉ b!"[]") : (piecesText ps).WellFormed := by
  induction ps with
  | nil => trivial
  | cons p ps ih =>
    obtain ⟨l, t⟩ := p
    have ih := ih fun x hx => h x (by simp [hx])
    have ht := h (l, t) (by simp)
    cases l
    · exact charsThen_ok ht ih
    · refine ⟨?_, charsThen_ok ht trivial, ih⟩
      cases t <;> rfl

/-- A link that is wanted, with parts that are kept. -/
theorem kept_wanted {env : ParserEnv} (d : LinkText) (h : d.WellFormed) (hb : d.startsWithBracket = false) (hu : isUnwantedLink env d.text = false)
    (hk : KeptPart env d.text) : KeptPart env (b!"[[" ++ d.text ++ b!"]]") := by
  intro t ht
  rw [linkLoop_link env d t h hb, if_neg (by simp [hu]), List.append_assoc, hk _ (kept_text env (by decide) t ht)]
  simp

theorem kept_link (env : ParserEnv) {inner : Str} (h : ∀ c ∈ inner, c ∉ b!"[]") (hk : KeptLink env inner) :
    KeptPart env (b!"[[" ++ inner ++ b!"]]") := by
  have hu : isUnwantedLink env inner = false := by
    rw [← Bool.not_eq_true, isUnwantedLink_iff env inner fun hm => absurd hm hk.2]
    exact hk.1
  have e : (charsThen inner .nil).text = inner := by rw [charsThen_text]; simp [LinkText.text]
  have := kept_wanted (env := env) (charsThen inner .nil) (charsThen_ok h trivial) (by cases inner <;> rfl) (by rw [e]; exact hu)
    (by rw [e]; exact kept_text env fun hm => h _ hm (by decide))
  rwa [e] at this

theorem kept_web (env : ParserEnv) {inner : Str} (h : (0x5B : Byte) ∉ inner) : KeptPart env (b!"[" ++ inner ++ b!"]") := by
  intro t ht
  show linkLoop env (0x5B :: (inner ++ b!"]" ++ t)) 0 = .ok (0x5B :: (inner ++ b!"]" ++ t))
  refine linkLoop_keep env ?_ ?_
  · rw [List.cons_prefix_cons]
    rintro ⟨_, hp⟩
    cases inner with
    | nil => simp [List.cons_prefix_cons] at hp
    | cons c inner =>
      simp only [List.cons_append, List.cons_prefix_cons] at hp
      exact h (by simp [hp.1])
  · rw [List.append_assoc]
    exact kept_text env h _ (kept_text env (by decide) t ht)

/-- Files are wanted. -/
theorem file_wanted {env : ParserEnv} {space rest : Str} (hs : (0x3A : Byte) ∉ space) (hf : env.lower space ∈ env.config.list .filePrefixes) :
    isUnwantedLink env (space ++ b!":" ++ rest) = false := by
  have e : split (space ++ b!":" ++ rest) b!":" = space :: split rest b!":" := by
    rw [List.append_assoc]
    exact split_singleton_append rest hs
  rw [isUnwantedLink, e, List.dropLast_cons_of_ne_nil (split_ne_nil _ (by simp))]
  simp [hf]

theorem kept_file {env : ParserEnv} {space : Str} (hs : ∀ c ∈ space, c ∉ b!"[]:") (hf : env.lower space ∈ env.config.list .filePrefixes)
    (ps : List (Bool × Str)) (h : ∀ p ∈ ps, ∀ c ∈ p.2, c ∉ b!"[]") (hk : ∀ p ∈ ps, KeptPart env (linkPieceStr p)) :
    KeptPart env (b!"[[" ++ (space ++ b!":" ++ ps.flatMap linkPieceStr) ++ b!"]]") := by
  have e : (charsThen (space ++ b!":") (piecesText ps)).text = space ++ b!":" ++ ps.flatMap linkPieceStr := by
    rw [charsThen_text, piecesText_text]
  have hc : ∀ c ∈ space ++ b!":", c ∉ b!"[]" := by
    intro c hc hm
    rcases List.mem_append.mp hc with hc | hc
    · exact hs c hc (by revert hm; simp only [List.mem_cons, List.not_mem_nil, or_false]; tauto)
    · rw [List.mem_singleton.mp hc] at hm
      exact absurd hm (by decide)
  have := kept_wanted (env := env) (charsThen (space ++ b!":") (piecesText ps)) (charsThen_ok hc (piecesText_ok h)) (charsThen_start (by simp) _)
    (by rw [e]; exact file_wanted (fun hm => hs _ hm (by decide)) hf)
    (by
      rw [e]
      refine (kept_text env fun hm => hc _ hm (by decide)).append ?_
      rw [List.flatMap_def]
      refine KeptPart.flatten _ fun x hx => ?_
      obtain ⟨p, hp, rfl⟩ := List.mem_map.mp hx
      exact hk p hp)
  rwa [e] at this

/-! ### The parts of an article -/

/-- A part without templates and placeholders. -/
structure CalmPart (x : Str) : Prop where
  pairs : ∀ c ∈ b!"{$_", ¬ [c, c] <:+: x ∧ x.getLast? ≠ some c

theorem CalmPart.append {x y : Str} (hx : CalmPart x) (hy : CalmPart y) : CalmPart (x ++ y) := by
  refine ⟨fun c hc => ?_⟩
  obtain ⟨h1, h2⟩ := hx.pairs c hc
  obtain ⟨h3, h4⟩ := hy.pairs c hc
  refine ⟨no_pair_append h1 (Or.inl h2) h3, ?_⟩
  cases hy' : y with
  | nil => simpa using h2
  | cons d y' =>
    rw [List.getLast?_append_of_ne_nil _ (by simp), ← hy']
    exact h4

theorem calmPart_of {t : Str} (h : ∀ c ∈ b!"{$_", c ∉ t) : CalmPart t := by
  refine ⟨fun c hc => ?_⟩
  have : c ∉ t := h c hc
  exact ⟨no_pair_of_not_mem this, last_of_not_mem this⟩

theorem CalmPart.flatMap {α : Type} (f : α → Str) (l : List α) (h : ∀ a ∈ l, CalmPart (f a)) : CalmPart (l.flatMap f) := by
  induction l with
  | nil => exact calmPart_of (by simp)
  | cons a l ih => exact (h a (by simp)).append (ih fun x hx => h x (by simp [hx]))

theorem calmPart_textWords {t : Str} (h : TextWords t) : CalmPart t := by
  refine ⟨fun c hc => ?_⟩
  by_cases hb : c = 0x7B
  · have : c ∉ t := fun hm => h.chars c hm (by rw [hb]; decide)
    exact ⟨no_pair_of_not_mem this, last_of_not_mem this⟩
  have h3 : c ∈ b!"'$_" := by revert hc hb; simp only [List.mem_cons, List.not_mem_nil, or_false]; tauto
  exact ⟨h.pairs c h3, h.last c (by revert h3; simp only [List.mem_cons, List.not_mem_nil, or_false]; tauto)⟩

theorem calmPart_words {t : Str} (h : Words t) : CalmPart t := by
  refine ⟨fun c hc => ?_⟩
  by_cases hb : c = 0x7B
  · have : c ∉ t := Words.not_mem h (by rw [hb]; decide)
    exact ⟨no_pair_of_not_mem this, last_of_not_mem this⟩
  have h3 : c ∈ b!"'$_" := by revert hc hb; simp only [List.mem_cons, List.not_mem_nil, or_false]; tauto
  exact ⟨h.pairs c h3, h.last c h3⟩

theorem calmPart_quotes (e : Emphasis) : CalmPart e.quotes := calmPart_of (by cases e <;> decide)

/-- A part of an article that no step of the cleaner changes. -/
structure CleanPart (env : ParserEnv) (x : Str) : Prop where
  kept : KeptPart env x
  calm : CalmPart x

theorem cleanPart_frame (env : ParserEnv) {t : Str} (h : ∀ c ∈ t, c ∈ b!"*#;:= \n") : CleanPart env t := by
  have hn : ∀ c : Byte, c ∉ b!"*#;:= \n" → c ∉ t := fun c hc hm => hc (h c hm)
  refine ⟨kept_text env (hn _ (by decide)), calmPart_of fun c hc => hn c ?_⟩
  revert c
  decide

theorem cleanPart_text (env : ParserEnv) {t : Str} (h : TextWords t) : CleanPart env t :=
  ⟨kept_text env fun hm => h.chars _ hm (by decide), calmPart_textWords h⟩

theorem cleanPart_link (env : ParserEnv) {t : Str} (h : Words t) (hk : KeptLink env t) : CleanPart env (b!"[[" ++ t ++ b!"]]") := by
  refine ⟨kept_link env ?_ hk, ((calmPart_of (by decide)).append (calmPart_words h)).append (calmPart_of (by decide))⟩
  intro c hm hx
  simp only [List.mem_cons, List.not_mem_nil, or_false] at hx
  rcases hx with rfl | rfl
  · exact Words.not_mem h (by decide) hm
  · exact Words.not_mem h (by decide) hm

theorem cleanPart_quotes (env : ParserEnv) (e : Emphasis) : CleanPart env e.quotes :=
  ⟨kept_text env (by cases e <;> decide), calmPart_quotes e⟩

/-! ### Images -/

def capPiece : CaptionPart → Bool × Str
  | .text t => (false, t)
  | .link l => (true, l.inner)

def capRunPieces (r : CaptionRun) : List (Bool × Str) :=
  match r.style with
  | none => r.parts.map capPiece
  | some e => (false, e.quotes) :: (r.parts.map capPiece ++ [(false, e.quotes)])

theorem capPieces_source (c : List CaptionRun) : (c.flatMap capRunPieces).flatMap linkPieceStr = captionSource c := by
  have hp : ∀ ps : List CaptionPart, (ps.map capPiece).flatMap linkPieceStr = ps.flatMap CaptionPart.source := by
    intro ps
    rw [List.flatMap_map]
    congr 1
    funext p
    cases p <;> rfl
  rw [List.flatMap_assoc]
  unfold captionSource
  congr 1
  funext r
  unfold capRunPieces CaptionRun.source
  cases r.style with
  | none => exact hp _
  | some e => simp [hp, linkPieceStr]

theorem capPiece_clean {env : ParserEnv} {p : CaptionPart} (h : p.WellFormed env) : (∀ c ∈ (capPiece p).2, c ∉ b!"[]") ∧ CleanPart env (linkPieceStr (capPiece p)) := by
  have free : ∀ {t : Str}, Words t → ∀ c ∈ t, c ∉ b!"[]" := fun hw c hc hm =>
    Words.not_mem hw (by revert hm; simp only [List.mem_cons, List.not_mem_nil, or_false]; tauto) hc
  cases p with
  | text t =>
    refine ⟨fun c hc hm => h.2.1.chars c hc ?_, cleanPart_text env h.2.1⟩
    revert hm; simp only [List.mem_cons, List.not_mem_nil, or_false]; tauto
  | link l => exact ⟨free h.2.1, cleanPart_link env h.2.1 h.2.2.1⟩

theorem capPieces_clean {env : ParserEnv} {c : List CaptionRun} (h : CaptionOk env c) : ∀ p ∈ c.flatMap capRunPieces,
    (∀ x ∈ p.2, x ∉ b!"[]") ∧ CleanPart env (linkPieceStr p) := by
  intro p hp
  obtain ⟨r, hr, hp⟩ := List.mem_flatMap.mp hp
  have hparts : p ∈ r.parts.map capPiece → (∀ x ∈ p.2, x ∉ b!"[]") ∧ CleanPart env (linkPieceStr p) := by
    intro hp
    obtain ⟨q, hq, rfl⟩ := List.mem_map.mp hp
    exact capPiece_clean ((h.runs r hr).2 q hq)
  have hquotes : ∀ e : Emphasis, (∀ x ∈ e.quotes, x ∉ b!"[]") ∧ CleanPart env e.quotes := fun e =>
    ⟨by cases e <;> decide, cleanPart_quotes env e⟩
  unfold capRunPieces at hp
  split at hp
  · exact hparts hp
  · simp only [List.mem_cons, List.mem_append, List.not_mem_nil, or_false] at hp
    rcases hp with rfl | hp | rfl
    · exact hquotes _
    · exact hparts hp
    · exact hquotes _

theorem cleanPart_image {env : ParserEnv} {p : ArticleImage} (h : p.WellFormed env) : CleanPart env p.written.source := by
  have hok := picture_ok h
  have hw : Words (p.space ++ b!":" ++ WikiImage.front ⟨p.space, p.name, p.options, none⟩) := hok.words
  have hfront : ∀ c ∈ WikiImage.front ⟨p.space, p.name, p.options, none⟩, c ∉ b!"[]" := fun c hc hm =>
    Words.not_mem hw (c := c) (by revert hm; simp only [List.mem_cons, List.not_mem_nil, or_false]; tauto) (by simp [hc])
  -- the pieces behind the name of the namespace
  have key : ∀ ps : List (Bool × Str), (∀ p ∈ ps, (∀ x ∈ p.2, x ∉ b!"[]") ∧ CleanPart env (linkPieceStr p)) →
      CleanPart env (b!"[[" ++ (p.space ++ b!":" ++ ((false, WikiImage.front ⟨p.space, p.name, p.options, none⟩) :: ps).flatMap linkPieceStr) ++ b!"]]") := by
    intro ps hps
    refine ⟨kept_file (fun c hc => h.image.space.2 c hc) h.file _ ?_ ?_, ?_⟩
    · intro q hq
      rcases List.mem_cons.mp hq with rfl | hq
      · exact hfront
      · exact (hps q hq).1
    · intro q hq
      rcases List.mem_cons.mp hq with rfl | hq
      · exact kept_text env fun hm => hfront _ hm (by decide)
      · exact (hps q hq).2.kept
    · refine ((calmPart_of (by decide)).append ?_).append (calmPart_of (by decide))
      rw [List.flatMap_cons, ← List.append_assoc]
      exact (calmPart_words hw).append (CalmPart.flatMap _ _ fun q hq => (hps q hq).2.calm)
  have e := picture_source p
  cases hc : p.caption with
  | none =>
    have := key [] (by simp)
    rw [e, hc]
    simpa [linkPieceStr, capWritten, frontOf] using this
  | some c =>
    have := key ((false, b!"|") :: c.flatMap capRunPieces) (by
      intro q hq
      rcases List.mem_cons.mp hq with rfl | hq
      · exact ⟨by decide, kept_text env (by decide), calmPart_of (by decide)⟩
      · exact capPieces_clean (h.caption c hc) q hq)
    rw [List.flatMap_cons, List.flatMap_cons, capPieces_source] at this
    rw [e, hc]
    simpa [linkPieceStr, capWritten, frontOf, captionSource_atoms] using this

/-! ### References -/

theorem CleanPart.append {env : ParserEnv} {x y : Str} (hx : CleanPart env x) (hy : CleanPart env y) : CleanPart env (x ++ y) :=
  ⟨hx.kept.append hy.kept, hx.calm.append hy.calm⟩

theorem CleanPart.flatMap {α : Type} {env : ParserEnv} (f : α → Str) (l : List α) (h : ∀ a ∈ l, CleanPart env (f a)) : CleanPart env (l.flatMap f) := by
  induction l with
  | nil => exact ⟨kept_text env (by simp), calmPart_of (by simp)⟩
  | cons a l ih => exact (h a (by simp)).append (ih fun x hx => h x (by simp [hx]))

theorem cleanPart_web (env : ParserEnv) {url label : Str} (h : Words (url ++ b!" " ++ label)) : CleanPart env (b!"[" ++ url ++ b!" " ++ label ++ b!"]") := by
  have e : b!"[" ++ url ++ b!" " ++ label ++ b!"]" = b!"[" ++ (url ++ b!" " ++ label) ++ b!"]" := by simp
  rw [e]
  exact ⟨kept_web env (Words.not_mem h (by decide)), ((calmPart_of (by decide)).append (calmPart_words h)).append (calmPart_of (by decide))⟩

theorem cleanPart_note {env : ParserEnv} {c : NoteText} (h : NoteOk env c) : CleanPart env (noteSource c) := by
  refine CleanPart.flatMap _ _ fun r hr => ?_
  have hp : CleanPart env (r.parts.flatMap NotePart.source) := CleanPart.flatMap _ _ fun p hp => by
    have := (h.runs r hr).2 p hp
    cases p with
    | text t => exact cleanPart_text env this.2.1
    | link l => exact cleanPart_link env this.2.1 this.2.2.1
    | web url label => exact cleanPart_web env this.2.1
  unfold NoteRun.source
  split
  · exact hp
  · exact ((cleanPart_quotes env _).append hp).append (cleanPart_quotes env _)

/-- A tag with attributes. -/
theorem cleanPart_tag (env : ParserEnv) {attrs : RefAttrs} (hc : ∀ c ∈ attrs.text, c ∉ b!"[]{") (hp : ∀ c ∈ b!"'$_", ¬ [c, c] <:+: attrs.text)
    (space : Nat) {x y : Str} (hx : ∀ c ∈ b!"[{$_", c ∉ x) (hy : ∀ c ∈ b!"[{$_", c ∉ y) (hne : y ≠ []) : CleanPart env (x ++ attrs.text ++ spaces space ++ y) := by
  have hs : ∀ c : Byte, c ≠ 0x20 → c ∉ spaces space := fun c hc hm => hc (List.eq_of_mem_replicate hm)
  refine ⟨kept_text env ?_, ⟨fun c hcm => ?_⟩⟩
  · simp only [List.mem_append, not_or]
    exact ⟨⟨⟨hx _ (by decide), fun hm => hc _ hm (by decide)⟩, hs _ (by decide)⟩, hy _ (by decide)⟩
  · obtain ⟨h1, h2⟩ := (by decide : ∀ c ∈ b!"{$_", c ∈ b!"[{$_" ∧ c ≠ 0x20) c hcm
    have hend : c ∉ spaces space ++ y := by
      rw [List.mem_append, not_or]
      exact ⟨hs c h2, hy c h1⟩
    have ha : ¬ [c, c] <:+: attrs.text := by
      by_cases hb : c = 0x7B
      · exact no_pair_of_not_mem fun hm => hc c hm (by rw [hb]; decide)
      · exact hp c (by revert hcm hb; simp only [List.mem_cons, List.not_mem_nil, or_false]; tauto)
    rw [List.append_assoc, List.append_assoc]
    refine ⟨no_pair_append (no_pair_of_not_mem (hx c h1)) (Or.inl (last_of_not_mem (hx c h1)))
      (no_pair_append ha (Or.inr fun e => hend (List.mem_of_mem_head? e)) (no_pair_of_not_mem hend)), ?_⟩
    rw [← List.append_assoc, ← List.append_assoc, List.getLast?_append_of_ne_nil _ hne]
    exact last_of_not_mem (hy c h1)

theorem cleanPart_ref {env : ParserEnv} {r : ArticleRef} (h : r.WellFormed env) : CleanPart env r.source := by
  unfold ArticleRef.source
  cases ht : r.kind with
  | mention => exact cleanPart_tag env h.chars h.pairs r.space (by decide) (by decide) (by decide)
  | list entries => exact cleanPart_tag env h.chars h.pairs r.space (by decide) (by decide) (by decide)
  | define c =>
    simp only
    rw [List.append_assoc]
    exact (cleanPart_tag env h.chars h.pairs r.space (by decide) (by decide) (by decide)).append ((cleanPart_note (h.text c ht)).append
      ⟨kept_text env (by decide), calmPart_of (by decide)⟩)

theorem cleanPart_inline {env : ParserEnv} {p : Inline} (h : p.WellFormed env) : CleanPart env p.source := by
  cases p with
  | text t => exact cleanPart_text env h.2
  | link l => exact cleanPart_link env h.2.1 h.2.2.1
  | web url label => exact cleanPart_web env h.2.1
  | image p => exact cleanPart_image h
  | ref r => exact cleanPart_ref h
  | math attributes formula =>
    refine ⟨kept_text env ?_, ⟨fun c hc => ?_⟩⟩
    · have h1 : (0x5B : Byte) ∉ attributes := fun hm => h.attributes _ hm (by decide)
      have h2 : (0x5B : Byte) ∉ formula := fun hm => h.chars _ hm (by decide)
      simp [Inline.source, h1, h2]
    · obtain ⟨h1, h2, h3, hend⟩ := (by decide : ∀ c ∈ b!"{$_", c ∈ b!"\n[]{<>'$_" ∧ c ∉ b!"<math" ∧ c ∉ b!">" ∧ c ∉ b!"</math>") c hc
      have hstart : c ∉ b!"<math" ++ attributes ++ b!">" := by
        simp only [List.mem_append, not_or]
        exact ⟨⟨h2, fun hm => h.attributes _ hm h1⟩, h3⟩
      have hf : ¬ [c, c] <:+: formula := by
        by_cases hd : c = 0x24
        · exact no_pair_of_not_mem fun hm => h.chars _ hm (by rw [hd]; decide)
        · exact h.pairs c (by revert hc hd; simp only [List.mem_cons, List.not_mem_nil, or_false]; tauto)
      have e : Inline.source (.math attributes formula) = (b!"<math" ++ attributes ++ b!">") ++ (formula ++ b!"</math>") := by
        simp [Inline.source]
      rw [e]
      refine ⟨no_pair_append (no_pair_of_not_mem hstart) (Or.inl (last_of_not_mem hstart))
        (no_pair_append hf (Or.inr ?_) (no_pair_of_not_mem hend)), ?_⟩
      · intro hm
        exact hend (List.mem_of_mem_head? hm)
      · rw [List.getLast?_append_of_ne_nil _ (by simp), List.getLast?_append_of_ne_nil _ (by simp)]
        exact last_of_not_mem hend

/-- The parts of a line. -/
def richParts (l : RichLine) : List Str := l.flatMap fun r =>
  match r.style with
  | none => r.parts.map Inline.source
  | some e => e.quotes :: (r.parts.map Inline.source ++ [e.quotes])

theorem richParts_flatten (l : RichLine) : (richParts l).flatten = lineSource l := by
  induction l with
  | nil => rfl
  | cons r l ih =>
    show (_ ++ richParts l).flatten = r.source ++ lineSource l
    rw [List.flatten_append, ih]
    congr 1
    obtain ⟨style, parts⟩ := r
    cases style <;> simp [Run.source, List.flatMap_def]

theorem richParts_clean {env : ParserEnv} {l : RichLine} (h : RichLineOk env l) : ∀ x ∈ richParts l, CleanPart env x := by
  intro x hx
  obtain ⟨r, hr, hx⟩ := List.mem_flatMap.mp hx
  have hp : x ∈ r.parts.map Inline.source → CleanPart env x := by
    intro hx
    obtain ⟨p, hp, rfl⟩ := List.mem_map.mp hx
    exact cleanPart_inline ((h.runs r hr).2.1 p hp)
  split at hx
  · exact hp hx
  · simp only [List.mem_cons, List.mem_append, List.not_mem_nil, or_false] at hx
    rcases hx with rfl | hx | rfl
    · exact cleanPart_quotes env _
    · exact hp hx
    · exact cleanPart_quotes env _

def dlineParts : DLine RichLine → List Str
  | .blank => []
  | .one pre l post => pre :: (richParts l ++ [post])
  | .pieces ps => ps.flatMap (Sum.elim (fun s => [s]) richParts)

def docParts : List (DLine RichLine) → List Str
  | [] => []
  | [l] => dlineParts l
  | l :: l' :: ls => dlineParts l ++ b!"\n" :: docParts (l' :: ls)

theorem dlineParts_flatten (l : DLine RichLine) : (dlineParts l).flatten = strOf lineSource l := by
  cases l with
  | blank => rfl
  | one pre l post => simp [dlineParts, strOf, richParts_flatten]
  | pieces ps =>
    rw [dlineParts, strOf]
    induction ps with
    | nil => rfl
    | cons p ps ih =>
      rw [List.flatMap_cons, List.flatten_append, ih, List.flatMap_cons]
      congr 1
      cases p with
      | inl s => simp
      | inr l => exact richParts_flatten l

theorem TableFrame.clean (env : ParserEnv) {s : Str} (h : TableFrame s) : CleanPart env s := by
  refine ⟨kept_text env (h.not_mem (by decide)), ⟨fun c hc => ?_⟩⟩
  by_cases hm : c ∈ s
  · have : c = 0x7B := by
      simp only [List.mem_cons, List.not_mem_nil, or_false] at hc
      rcases hc with rfl | rfl | rfl
      · rfl
      · exact absurd hm (h.not_mem (by decide))
      · exact absurd hm (h.not_mem (by decide))
    subst this
    obtain ⟨r, e, hr⟩ := h.braces hm
    have hr' : (0x7B : Byte) ∉ 0x7C :: r := by
      intro hx
      rcases List.mem_cons.mp hx with hx | hx
      · exact absurd hx (by decide)
      · exact hr hx
    rw [e]
    refine ⟨?_, ?_⟩
    · exact no_pair_append (x := [0x7B]) (y := 0x7C :: r) (by decide) (Or.inr (by simp)) (no_pair_of_not_mem hr')
    · rw [show b!"{|" ++ r = [0x7B] ++ 0x7C :: r from rfl, List.getLast?_append_of_ne_nil _ (by simp)]
      exact last_of_not_mem hr'
  · exact ⟨no_pair_of_not_mem hm, last_of_not_mem hm⟩

theorem docParts_flatten (ls : List (DLine RichLine)) : (docParts ls).flatten = join b!"\n" (ls.map (strOf lineSource)) := by
  induction ls with
  | nil => rfl
  | cons l ls ih =>
    cases ls with
    | nil => rw [docParts, dlineParts_flatten]; rfl
    | cons l' ls =>
      rw [List.map_cons, join_cons_of_ne_nil (by simp), ← ih, ← dlineParts_flatten]
      simp [docParts]

theorem docParts_clean {env : ParserEnv} (ls : List (DLine RichLine)) (hf : ∀ l ∈ ls, l.Framed) (h : ∀ l ∈ ls, l.All (RichLineOk env)) :
    ∀ x ∈ docParts ls, CleanPart env x := by
  have hl : ∀ l ∈ ls, ∀ x ∈ dlineParts l, CleanPart env x := by
    intro l hl x hx
    have hf := hf l hl
    have h := h l hl
    cases l with
    | blank => simp [dlineParts] at hx
    | one pre l post =>
      have hw : ∀ {t : Str}, (∀ c ∈ t, c ∈ b!"*#;:= ") → CleanPart env t := fun ht => cleanPart_frame env fun c hc => by
        have := ht c hc
        revert this; simp only [List.mem_cons, List.not_mem_nil, or_false]; tauto
      simp only [dlineParts, List.mem_cons, List.mem_append, List.not_mem_nil, or_false] at hx
      rcases hx with rfl | hx | rfl
      · exact hw hf.1
      · exact richParts_clean h x hx
      · exact hw hf.2
    | pieces ps =>
      obtain ⟨p, hp, hx⟩ := List.mem_flatMap.mp hx
      cases p with
      | inl s =>
        have hx : x ∈ [s] := hx
        rw [List.mem_singleton.mp hx]
        exact (hf s hp).clean env
      | inr l => exact richParts_clean (h l hp) x hx
  clear hf h
  induction ls with
  | nil => simp [docParts]
  | cons l ls ih =>
    have ih := ih fun x hx => hl x (by simp [hx])
    cases ls with
    | nil => exact hl l (by simp)
    | cons l' ls =>
      intro x hx
      rw [docParts, List.mem_append, List.mem_cons] at hx
      rcases hx with hx | rfl | hx
      · exact hl l (by simp) x hx
      · exact cleanPart_frame env (by decide)
      · exact ih x hx

/-! ### Lines -/

theorem lineSource_ne {env : ParserEnv} {l : RichLine} (h : RichLineOk env l) : ∃ c r, lineSource l = c :: r ∧ c ∉ b!"*#;:=" := by
  have : lineSource l ≠ [] := by
    obtain ⟨r, rest, rfl⟩ := List.exists_cons_of_ne_nil h.nonEmpty
    have h1 : r.parts.flatMap Inline.source ≠ [] := by
      have hw := h.runs r (by simp)
      obtain ⟨p, ps, e⟩ := List.exists_cons_of_ne_nil hw.1
      rw [e, List.flatMap_cons]
      simp [(inline_head (hw.2.1 p (by simp [e]))).1]
    have : r.source ≠ [] := by
      unfold Run.source
      cases r.style with
      | none => exact h1
      | some e => simp [h1]
    show r.source ++ lineSource rest ≠ []
    simp [this]
  obtain ⟨c, r, e⟩ := List.exists_cons_of_ne_nil this
  exact ⟨c, r, e, h.start c (by rw [e]; rfl)⟩

mutual
theorem tree_post {α : Type} (pre : Str) : ∀ (t : TreeList (Nat × α)), ∀ l ∈ TreeList.dlines pre t, ∃ p x, l = .one p x []
  | .mk m items => by rw [TreeList.dlines]; exact items_post pre items
theorem items_post {α : Type} (pre : Str) : ∀ (items : List (TreeItem (Nat × α))), ∀ l ∈ treeItemsDlines pre items, ∃ p x, l = .one p x []
  | [] => by simp [treeItemsDlines]
  | .mk c text subs :: rest => by
    intro l hl
    rw [treeItemsDlines, List.mem_cons, List.mem_append] at hl
    rcases hl with rfl | hl | hl
    · exact ⟨_, _, rfl⟩
    · exact trees_post _ subs l hl
    · exact items_post pre rest l hl
theorem trees_post {α : Type} (pre : Str) : ∀ (subs : List (TreeList (Nat × α))), ∀ l ∈ treesDlines pre subs, ∃ p x, l = .one p x []
  | [] => by simp [treesDlines]
  | t :: rest => by
    intro l hl
    rw [treesDlines, List.mem_append] at hl
    rcases hl with hl | hl
    · exact tree_post pre t l hl
    · exact trees_post pre rest l hl
end

/-- A line that the cleaner does not change. -/
structure CleanLine (l : Str) : Prop where
  oneLine : (0x0A : Byte) ∉ l
  trimmed : trimSpace l = l
  kept : keepListLine l = true

/-- A line of text. -/
structure CleanText (l : Str) : Prop where
  line : CleanLine l
  nonEmpty : l ≠ []
  depth : headingDepth l = 0

theorem lineSource_oneLine {env : ParserEnv} {l : RichLine} (h : RichLineOk env l) : (0x0A : Byte) ∉ lineSource l := by
  rw [lineSource_atoms env]
  intro hm
  obtain ⟨a, ha, hm⟩ := List.mem_flatMap.mp hm
  rcases mem_richAtoms ha with ⟨r, hr, p, hp, rfl⟩ | ⟨m, rfl⟩
  · have hw := (h.runs r hr).2.1 p hp
    have hm := mem_writtenAtom (inlineAtom_ok hw) (by decide) hm
    cases p with
    | text t => exact hw.2.chars _ hm (by decide)
    | _ => exact (inlineAtom_ok hw).no_newline rfl hm
  · exact not_mem_keyed (marker_chars m) (by decide) (by decide) (mem_writtenAtom (env := env) (a := .mark m) trivial (by decide) hm)

theorem headingDepth_zero {c : Byte} {t : Str} (hc : c ≠ 0x3D) (hb : ¬ (b!"'''" <+: c :: t ∧ b!"'''" <:+ c :: t)) : headingDepth (c :: t) = 0 := by
  rw [headingDepth, if_pos, if_neg]
  · rw [hasPrefix_iff, hasSuffix_iff]; exact hb
  · left
    rw [hasPrefix_iff, List.cons_prefix_cons]
    exact fun h => hc h.1.symm

theorem paragraph_clean {env : ParserEnv} {l : RichLine} (h : RichLineOk env l) (hb : ¬ (b!"'''" <+: lineSource l ∧ b!"'''" <:+ lineSource l)) :
    CleanText (lineSource l) := by
  obtain ⟨c, r, e, hc⟩ := lineSource_ne h
  have hs : c ≠ 0x2A ∧ c ≠ 0x23 ∧ c ≠ 0x3B ∧ c ≠ 0x3A ∧ c ≠ 0x3D := by simpa using hc
  refine ⟨⟨lineSource_oneLine h, h.trimmed, ?_⟩, by simp [e], ?_⟩
  · rw [e]
    simp [keepListLine, isListBeginning, hs]
  · rw [e] at hb ⊢
    exact headingDepth_zero hs.2.2.2.2 hb

theorem item_clean {env : ParserEnv} {c : Byte} {p : Str} {l : RichLine} (h : RichLineOk env l) (hc : c ∈ b!"*#;:") (hp : ∀ b ∈ c :: p, b ∈ b!"*#;:= ") :
    CleanText (c :: p ++ lineSource l) := by
  have hc' : c = 0x2A ∨ c = 0x23 ∨ c = 0x3B ∨ c = 0x3A := by simpa using hc
  obtain ⟨d, r, e, hd⟩ := lineSource_ne h
  have hne : lineSource l ≠ [] := by simp [e]
  refine ⟨⟨?_, ?_, ?_⟩, by simp, ?_⟩
  · intro hm
    rcases List.mem_append.mp hm with hm | hm
    · exact absurd (hp _ hm) (by decide)
    · exact lineSource_oneLine h hm
  · have hv : 33 ≤ c ∧ c ≤ 126 := by rcases hc' with rfl | rfl | rfl | rfl <;> decide
    obtain ⟨_, c2⟩ := clean_of_trimSpace h.trimmed
    rw [trimSpace, List.cons_append, trimSpaceLeft_visible hv, ← List.cons_append]
    refine trimSpaceRight_clean fun sp hsp hs => ?_
    rcases List.suffix_or_suffix_of_suffix hs (List.suffix_append (c :: p) (lineSource l)) with h1 | h1
    · exact c2 sp hsp h1
    · obtain ⟨u, hu⟩ := h1
      obtain ⟨v, hv⟩ := hs
      rw [← hu, ← List.append_assoc] at hv
      have hv := List.append_cancel_right hv
      cases hu' : u with
      | nil => rw [hu', List.nil_append] at hu; exact c2 sp hsp (hu ▸ List.suffix_refl _)
      | cons b u' =>
        have hall : ∀ sp ∈ spaceChars, ∀ b ∈ sp.dropLast, b ∉ b!"*#;:= " := by decide
        refine hall sp hsp b ?_ (hp b (by rw [← hv, hu']; simp))
        rw [← hu, hu', List.dropLast_append_of_ne_nil hne]
        simp
  · rw [keepListLine.eq_def]
    simp only [List.cons_append, Bool.or_eq_true, decide_eq_true_eq]
    right
    intro he
    rw [List.countP_eq_length] at he
    have := he d (by simp [e])
    have hd : d ≠ 0x2A ∧ d ≠ 0x23 ∧ d ≠ 0x3B ∧ d ≠ 0x3A ∧ d ≠ 0x3D := by simpa using hd
    simp [isListBeginning, hd] at this
  · refine headingDepth_zero (by rcases hc' with rfl | rfl | rfl | rfl <;> decide) ?_
    rintro ⟨h1, _⟩
    rw [List.cons_prefix_cons] at h1
    rcases hc' with rfl | rfl | rfl | rfl <;> exact absurd h1.1 (by decide)

theorem heading_clean {env : ParserEnv} {l : RichLine} (h : RichLineOk env l) (he : (0x3D : Byte) ∉ lineSource l) {level : Nat} (h1 : 1 ≤ level)
    (before after : Nat) : CleanLine (headPre level before ++ lineSource l ++ headPost level after) ∧
      headPre level before ++ lineSource l ++ headPost level after ≠ [] ∧
      headingDepth (headPre level before ++ lineSource l ++ headPost level after) = level := by
  obtain ⟨d, r, e, hd⟩ := lineSource_ne h
  have hline : headPre level before ++ lineSource l ++ headPost level after =
      List.replicate level 0x3D ++ (spaces before ++ lineSource l ++ spaces after) ++ List.replicate level 0x3D := by
    simp [headPre, headPost]
  have hm : (0x3D : Byte) ∉ spaces before ++ lineSource l ++ spaces after := by
    simp only [List.mem_append, not_or]
    refine ⟨⟨fun h => ?_, he⟩, fun h => ?_⟩ <;> exact absurd (List.eq_of_mem_replicate h) (by decide)
  have h10 : (0x0A : Byte) ∉ spaces before ++ lineSource l ++ spaces after := by
    simp only [List.mem_append, not_or]
    refine ⟨⟨fun h => ?_, lineSource_oneLine h⟩, fun h => ?_⟩ <;> exact absurd (List.eq_of_mem_replicate h) (by decide)
  have hne : spaces before ++ lineSource l ++ spaces after ≠ [] := by simp [e]
  rw [hline]
  generalize spaces before ++ lineSource l ++ spaces after = inner at hm hne h10
  obtain ⟨k, rfl⟩ : ∃ k, level = k + 1 := ⟨level - 1, by omega⟩
  refine ⟨⟨?_, ?_, ?_⟩, by simp [hne], ?_⟩
  · simp only [List.mem_append, not_or]
    refine ⟨⟨fun h => ?_, h10⟩, fun h => ?_⟩ <;> exact absurd (List.eq_of_mem_replicate h) (by decide)
  · refine trimSpace_visible ?_ ?_
    · intro c hc
      simp [List.replicate_succ] at hc
      subst hc
      decide
    · intro c hc
      rw [List.replicate_succ', ← List.append_assoc, List.getLast?_concat] at hc
      simp at hc
      subst hc
      decide
  · rw [List.replicate_succ]
    rfl
  · exact headingDepth_of_heading (.text (k + 1) inner (by omega) hne (fun h => hm (List.mem_of_mem_head? h)) (last_of_not_mem hm))

/-- The lines of a table begin with a mark. -/
theorem table_source_head {α : Type} (g : α → Str) {t : DocTable α} : ∀ l ∈ tableDlines t, ∃ c r, strOf g l = c :: r ∧ c ∈ b!"{|!" := by
  intro l hl
  rcases mem_tableDlines hl with rfl | ⟨c, hc, rfl⟩ | ⟨r, hr, s, hs, rfl⟩ | ⟨r, hr, cs, hcs, rfl⟩ | rfl
  · exact ⟨_, _, rfl, by decide⟩
  · exact ⟨_, _, rfl, by decide⟩
  · exact ⟨_, _, rfl, by decide⟩
  · refine ⟨cellMark cs.heading, _, rfl, ?_⟩
    cases cs.heading <;> decide
  · exact ⟨_, _, rfl, by decide⟩

theorem table_clean {env : ParserEnv} {t : DocTable RichLine} (h : DocBlock.WellFormed env (.table t)) : ∀ l ∈ t.source lineSource, CleanText l := by
  intro l hl
  have ht := h.2 l hl
  rw [← table_source] at hl
  obtain ⟨dl, hdl, rfl⟩ := List.mem_map.mp hl
  obtain ⟨c, r, e, hc⟩ := table_source_head lineSource dl hdl
  have hs : c ≠ 0x2A ∧ c ≠ 0x23 ∧ c ≠ 0x3B ∧ c ≠ 0x3A ∧ c ≠ 0x3D ∧ c ≠ 0x27 := by
    simp only [List.mem_cons, List.not_mem_nil, or_false] at hc
    rcases hc with rfl | rfl | rfl <;> decide
  refine ⟨⟨?_, ht, ?_⟩, by simp [e], ?_⟩
  · have hf := table_framed h.1 dl hdl
    have ha : dl.All (RichLineOk env) := table_all (fun _ _ h => h.1) h.1 dl hdl
    rcases mem_tableDlines hdl with rfl | ⟨c, hc, rfl⟩ | ⟨r, hr, s, hs, rfl⟩ | ⟨r, hr, cs, hcs, rfl⟩ | rfl
    all_goals
      intro hm
      obtain ⟨p, hp, hm⟩ := List.mem_flatMap.mp hm
      cases p with
      | inl s => exact (hf s hp).not_mem (by decide) hm
      | inr x => exact lineSource_oneLine (ha x hp) hm
  · rw [e]
    simp [keepListLine, isListBeginning, hs]
  · rw [e]
    refine headingDepth_zero hs.2.2.2.2.1 ?_
    rintro ⟨h1, _⟩
    rw [List.cons_prefix_cons] at h1
    exact hs.2.2.2.2.2 h1.1.symm

/-! ### Sections -/

theorem sectionLoop_texts (ls rest : List Str) (h : ∀ l ∈ ls, headingDepth l = 0) : sectionLoop (ls ++ rest) 0 = ls ++ sectionLoop rest 0 := by
  induction ls with
  | nil => rfl
  | cons l ls ih =>
    rw [List.cons_append, sectionLoop_text _ (h l (by simp)), ih fun x hx => h x (by simp [hx])]
    rfl

theorem block_clean {env : ParserEnv} {b : DocBlock} (h : b.WellFormed env) : ∀ l ∈ b.source, CleanLine l ∧ l ≠ [] ∧
    ((∀ level before after title, b ≠ .heading level before after title) → headingDepth l = 0) := by
  intro l hl
  cases b with
  | heading level before after title =>
    have hl : l = headPre level before ++ lineSource title ++ headPost level after := by
      rw [DocBlock.source, List.mem_singleton] at hl
      simp [hl, headPre, headPost]
    subst hl
    obtain ⟨h1, h2, h3⟩ := heading_clean h.2.2.1 h.2.2.2.1 h.1 before after
    exact ⟨h1, h2, fun hn => absurd rfl (hn level before after title)⟩
  | gap => cases hl
  | paragraph lines =>
    obtain ⟨x, hx, rfl⟩ := List.mem_map.mp hl
    have := h.2 x hx
    have := paragraph_clean this.1 this.2.2
    exact ⟨this.line, this.nonEmpty, fun _ => this.depth⟩
  | list t =>
    rw [block_source] at hl
    obtain ⟨dl, hdl, rfl⟩ := List.mem_map.mp hl
    have hdl : dl ∈ TreeList.dlines [] t := hdl
    obtain ⟨c, p, x, q, rfl, hc⟩ := tree_marked (pre := []) (by simp) t dl hdl
    obtain ⟨p', x', e⟩ := tree_post [] t _ hdl
    have hf := tree_framed (pre := []) (by simp) t _ hdl
    have ha := tree_all (p := fun c p => RichLineOk env p.2 ∧ (c = .semicolon → NoColon p.2)) (q := RichLineOk env) (fun c a h => h.1) [] t h _ hdl
    cases e
    have := item_clean (env := env) (p := p) ha hc hf.1
    simp only [strOf, List.append_nil]
    exact ⟨this.line, this.nonEmpty, fun _ => this.depth⟩
  | image p =>
    rw [DocBlock.source, List.mem_singleton] at hl
    have e : l = lineSource [⟨none, [.image p]⟩] := by simp [hl, lineSource, Run.source, Inline.source]
    have := paragraph_clean (image_line_ok h) (by
      rw [← e, hl]
      rintro ⟨h1, _⟩
      simp [WikiImage.source, List.cons_prefix_cons] at h1)
    rw [e]
    exact ⟨this.line, this.nonEmpty, fun _ => this.depth⟩
  | references attrs space entries =>
    have e : DocBlock.source (.references attrs space entries) = [lineSource (referencesLine attrs space entries)] := by
      simp [DocBlock.source, referencesLine, lineSource, Run.source, Inline.source, ArticleRef.source]
    have e2 : lineSource (referencesLine attrs space entries) = b!"<references" ++ (attrs.text ++ spaces space) ++ b!"/>" := by
      simp [referencesLine, lineSource, Run.source, Inline.source, ArticleRef.source]
    rw [e, List.mem_singleton] at hl
    subst hl
    have := paragraph_clean (references_line_ok h) (by
      rw [e2]
      rintro ⟨h1, _⟩
      simp [List.cons_prefix_cons] at h1)
    exact ⟨this.line, this.nonEmpty, fun _ => this.depth⟩
  | table t =>
    have := table_clean h l hl
    exact ⟨this.line, this.nonEmpty, fun _ => this.depth⟩

theorem source_ne {env : ParserEnv} {b : DocBlock} (h : b.WellFormed env) (hz : b ≠ .gap) : b.source ≠ [] := by
  cases b with
  | gap => exact absurd rfl hz
  | heading level before after title => simp [DocBlock.source]
  | paragraph lines => simpa [DocBlock.source] using h.1
  | list t =>
    obtain ⟨m, items⟩ := t
    have hi := h.1
    rw [block_source]
    cases items with
    | nil => exact absurd rfl hi
    | cons i items => cases i; simp [docBlk, Blk.dlines, TreeList.dlines, treeItemsDlines]
  | image p => simp [DocBlock.source]
  | references attrs space entries => simp [DocBlock.source]
  | table t => simp [DocBlock.source, DocTable.source]

theorem document_cons (b : Nat × DocBlock) (doc : List (Nat × DocBlock)) :
    documentSource (b :: doc) = List.replicate b.1 [] ++ (b.2.source ++ documentSource doc) := by
  simp [documentSource]

theorem document_clean {env : ParserEnv} {doc : List (Nat × DocBlock)} (h : ∀ b ∈ doc, b.2.WellFormed env) : ∀ l ∈ documentSource doc, CleanLine l := by
  intro l hl
  obtain ⟨b, hb, hl⟩ := List.mem_flatMap.mp hl
  rcases List.mem_append.mp hl with hl | hl
  · rw [List.eq_of_mem_replicate hl]
    exact ⟨by simp, trimSpace_nil, rfl⟩
  · exact (block_clean (h b hb) l hl).1

theorem sections_kept {env : ParserEnv} (doc : List (Nat × DocBlock)) (h : ∀ b ∈ doc, b.2.WellFormed env) (hf : BlocksFollow doc) :
    sectionLoop (documentSource doc) 0 = documentSource doc := by
  induction doc with
  | nil => rfl
  | cons b doc ih =>
    obtain ⟨n, b⟩ := b
    have hw := h (n, b) (by simp)
    have hdoc : ∀ b ∈ doc, b.2.WellFormed env := fun x hx => h x (by simp [hx])
    have ih := ih hdoc (by
      cases doc with
      | nil => trivial
      | cons b' doc => exact hf.2)
    rw [document_cons, sectionLoop_texts _ _ (fun l hl => by rw [List.eq_of_mem_replicate hl]; exact depth_nil)]
    congr 1
    show sectionLoop (b.source ++ documentSource doc) 0 = b.source ++ documentSource doc
    by_cases hb : ∀ level before after title, b ≠ .heading level before after title
    · rw [sectionLoop_texts _ _ (fun l hl => (block_clean hw l hl).2.2 hb), ih]
    · simp only [not_forall, not_not] at hb
      obtain ⟨level, before, after, title, rfl⟩ := hb
      obtain ⟨h1, h2, h3⟩ := heading_clean hw.2.2.1 hw.2.2.2.1 hw.1 before after
      have e : DocBlock.source (.heading level before after title) = [headPre level before ++ lineSource title ++ headPost level after] := by
        simp [DocBlock.source, headPre, headPost]
      rw [e]
      show sectionLoop (_ :: documentSource doc) 0 = _ :: documentSource doc
      have hlev := hw.1
      rw [sectionLoop_full (fun l hl => (document_clean hdoc l hl).trimmed) (by rw [h3]; omega), ih]
      intro blanks tail e hemp
      cases doc with
      | nil => exact hf level before after title rfl
      | cons b' doc =>
        obtain ⟨m, b'⟩ := b'
        have hw' := hdoc (m, b') (by simp)
        have hz : b' ≠ .gap := by
          rintro rfl
          exact hf.1.elim
        obtain ⟨l, ls, el⟩ := List.exists_cons_of_ne_nil (source_ne hw' hz)
        have hl := block_clean hw' l (by simp [el])
        have hdep : headingDepth l = 0 ∨ level < headingDepth l := by
          by_cases hb : ∀ level before after title, b' ≠ .heading level before after title
          · exact Or.inl (hl.2.2 hb)
          · simp only [not_forall, not_not] at hb
            obtain ⟨level', before', after', title', rfl⟩ := hb
            obtain ⟨_, _, h6⟩ := heading_clean hw'.2.2.1 hw'.2.2.2.1 hw'.1 before' after'
            have e' : l = headPre level' before' ++ lineSource title' ++ headPost level' after' := by
              simp [DocBlock.source] at el
              rw [← el.1]
              simp [headPre, headPost]
            rw [e', h6]
            exact Or.inr hf.1
        rw [document_cons, el] at e
        obtain ⟨he1, he2⟩ := hemp
        have hrep : ∀ x ∈ List.replicate m ([] : Str), headingDepth x = 0 := fun x hx => by rw [List.eq_of_mem_replicate hx]; exact depth_nil
        have : List.replicate m [] ++ (l :: (ls ++ documentSource doc)) = blanks ++ tail := by simpa using e
        rcases List.append_eq_append_iff.mp this with ⟨x, e1, e2⟩ | ⟨x, e1, e2⟩
        · cases x with
          | nil =>
            rw [List.nil_append] at e2
            rw [← e2] at he2
            rcases he2 with he2 | ⟨y, t, ey, hy1, hy2⟩
            · cases he2
            · cases ey
              rw [h3] at hy2
              omega
          | cons y x =>
            simp only [List.cons_append, List.cons.injEq] at e2
            exact hl.2.1 (he1 l (by rw [e1, e2.1]; simp))
        · cases x with
          | nil =>
            rw [List.nil_append] at e2
            rw [e2] at he2
            rcases he2 with he2 | ⟨y, t, ey, hy1, hy2⟩
            · cases he2
            · cases ey
              rw [h3] at hy2
              omega
          | cons y x =>
            have hy : y = [] := List.eq_of_mem_replicate (show y ∈ List.replicate m [] by rw [e1]; simp)
            rw [e2, hy] at he2
            rcases he2 with he2 | ⟨z, t, ez, hz1, _⟩
            · cases he2
            · cases ez
              rw [depth_nil] at hz1
              omega

/-! ### The whole cleaner -/

/-- What the steps before the tokenizer depend on. -/
structure CleanSource (env : ParserEnv) (s : Str) : Prop where
  links : linkLoop env s 0 = .ok s
  pairs : ∀ c ∈ b!"{$_", ¬ [c, c] <:+: s

theorem cleanSource_document {env : ParserEnv} {doc : List (Nat × DocBlock)} (h : ∀ b ∈ doc, b.2.WellFormed env) :
    CleanSource env (join b!"\n" (documentSource doc)) := by
  have hc := docParts_clean (env := env) (docLines (startDoc doc)) (docLines_framed (startDoc doc) (document_plain h)) (document_lines_ok h)
  rw [documentSource_lines, ← docParts_flatten]
  generalize docParts (docLines (startDoc doc)) = xs at hc
  have hk := KeptPart.flatten (env := env) xs (fun x hx => (hc x hx).kept) [] rfl
  rw [List.append_nil] at hk
  exact ⟨hk, fun c hm => no_pair_flatten _ fun x hx => (hc x hx).calm.pairs c hm⟩

theorem documentSource_ne {env : ParserEnv} {doc : List (Nat × DocBlock)} (h : DocOk env doc) : documentSource doc ≠ [] := by
  obtain ⟨b, doc, rfl⟩ := List.exists_cons_of_ne_nil h.nonEmpty
  rw [document_cons]
  simp [source_ne (h.blocks b (by simp)) (h.start b rfl)]

/-- Cleaning does not change the article. -/
theorem clean_document (env : ParserEnv) (doc : List (Nat × DocBlock)) (h : DocOk env doc) (fuel : Nat)
    (hf : (join b!"\n" (documentSource doc)).length < fuel) :
    cleanText env fuel (join b!"\n" (documentSource doc)) = some (.ok (join b!"\n" (documentSource doc))) := by
  have hl := document_clean h.blocks
  have hc := cleanSource_document h.blocks
  have hs : split (join b!"\n" (documentSource doc)) b!"\n" = documentSource doc :=
    split_join_singleton (documentSource_ne h) (fun l h => (hl l h).oneLine)
  have hq : ¬ b!"{{" <:+: join b!"\n" (documentSource doc) := hc.pairs 0x7B (by decide)
  have e1 : handleUnwantedAndTrailingTemplates env (join b!"\n" (documentSource doc)) = join b!"\n" (documentSource doc) := by
    rw [handleUnwantedAndTrailingTemplates, templateLoop_calm env hq]
    simp
  have e2 : removeUnwantedWikitext (join b!"\n" (documentSource doc)) = join b!"\n" (documentSource doc) :=
    replaceAll_of_not_infix fun hi => hc.pairs 0x5F (by decide) (List.IsInfix.trans ⟨[], b!"NOTOC__", rfl⟩ hi)
  have e3 : removeEmptyListEntries (join b!"\n" (documentSource doc)) = join b!"\n" (documentSource doc) := by
    rw [removeEmptyListEntries, hs, List.map_congr_left (g := id) (fun l h => (hl l h).trimmed), List.map_id, List.filter_eq_self.mpr]
    exact fun l h => (hl l h).kept
  have e4 : removeEmptySections (join b!"\n" (documentSource doc)) = join b!"\n" (documentSource doc) := by
    rw [removeEmptySections, hs, sections_kept doc h.blocks h.follow]
  rw [cleanText, removeComments_calm (documentSource_calm h.blocks), removeUnwantedInternalLinks, hc.links]
  simp only [e1, e2, e3, e4]
  exact railwayLoop_calm hq fuel 0 (by omega) (by omega)

end Verif.Model
