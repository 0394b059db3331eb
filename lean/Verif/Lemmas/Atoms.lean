import Verif.Lemmas.PlainText
import Verif.Lemmas.Emphasis
import Verif.Lemmas.Expand
import Verif.Lemmas.Ends
import Verif.Spec.Document

/-!
# Lines as lists of atoms
-/

namespace Verif.Model
open Verif.Go Verif.Spec Verif.Lemmas
open scoped List

/-- A part of a caption in any stage of the tokenizer. -/
inductive CapAtom where
  | text (t : Str)
  | mark (m : Marker)
  | key (type : Str) (n : Nat)
  | link (l : WikiLink)

/-- The text of a reference: how it is written, how it is written with markers, and its HTML. -/
structure RefText where
  written : Str
  marked : Str
  html : Str

/-- A part of a line in any stage of the tokenizer. The caption of `i` is not used. -/
inductive Atom where
  | text (t : Str)
  | mark (m : Marker)
  | key (type : Str) (n : Nat)
  | link (l : WikiLink)
  | web (url label : Str)
  | image (i : WikiImage) (file : Str) (cap : Option (List CapAtom))
  | math (attributes formula : Str)
  | ref (number : Nat) (attrs : RefAttrs) (space : Nat) (kind : RefKind RefText)

def CapAtom.src : CapAtom → Str
  | .text t => t
  | .mark m => (Element.marker m).code
  | .key type n => tokenKey type n
  | .link l => b!"[[" ++ l.inner ++ b!"]]"

def capSrc (c : List CapAtom) : Str := c.flatMap CapAtom.src

@[simp] theorem capSrc_nil : capSrc [] = [] := rfl
@[simp] theorem capSrc_cons (a : CapAtom) (as : List CapAtom) : capSrc (a :: as) = a.src ++ capSrc as := rfl
@[simp] theorem capSrc_append (as bs : List CapAtom) : capSrc (as ++ bs) = capSrc as ++ capSrc bs := by simp [capSrc]

/-- What is in front of the caption. -/
def WikiImage.front (i : WikiImage) : Str := i.name ++ (i.options.flatMap fun o => b!"|" ++ o.source)

/-- The same with the name of the namespace. -/
def frontOf (i : WikiImage) : Str := i.space ++ b!":" ++ WikiImage.front i

/-- The caption with the character in front of it. -/
def capText : Option (List CapAtom) → Str
  | none => []
  | some c => b!"|" ++ capSrc c

def kindMap {α β : Type} (f : α → β) : RefKind α → RefKind β
  | .mention => .mention
  | .define c => .define (f c)
  | .list entries => .list (entries.map fun e => (e.1, f e.2))

theorem kindMap_mention {α β : Type} {f : α → β} {k : RefKind α} (h : kindMap f k = .mention) : k = .mention := by cases k <;> simp_all [kindMap]

theorem kindMap_define {α β : Type} {f : α → β} {k : RefKind α} {b : β} (h : kindMap f k = .define b) : ∃ a, k = .define a ∧ f a = b := by
  cases k <;> simp_all [kindMap]

/-- The beginning of the tag. -/
def refWord : RefKind RefText → Str
  | .list _ => b!"<references"
  | _ => b!"<ref"

/-- The text of a reference with the end of the tag in front of it. -/
def refRest (f : RefText → Str) : RefKind RefText → Str
  | .define c => b!">" ++ f c ++ b!"</ref>"
  | _ => b!"/>"

def Atom.src : Atom → Str
  | .text t => t
  | .mark m => (Element.marker m).code
  | .key type n => tokenKey type n
  | .link l => b!"[[" ++ l.inner ++ b!"]]"
  | .web url label => b!"[" ++ (Bracket.web url label).inner ++ b!"]"
  | .image i _ cap => b!"[[" ++ frontOf i ++ capText cap ++ b!"]]"
  | .math attributes formula => b!"<math" ++ attributes ++ b!">" ++ formula ++ b!"</math>"
  | .ref _ attrs space note => refWord note ++ attrs.text ++ spaces space ++ refRest RefText.marked note

/-- The image with the caption. -/
def withCap (i : WikiImage) (cap : Option (List CapAtom)) : WikiImage := { i with caption := cap.map capSrc }

theorem withCap_inner (i : WikiImage) (cap : Option (List CapAtom)) : (withCap i cap).inner = WikiImage.front i ++ capText cap := by
  cases cap <;> rfl

theorem image_src (i : WikiImage) (file : Str) (cap : Option (List CapAtom)) : (Atom.image i file cap).src = (withCap i cap).source := by
  rw [WikiImage.source, withCap_inner, Atom.src, frontOf, withCap]
  simp

def CapAtom.atom : CapAtom → Atom
  | .text t => .text t
  | .mark m => .mark m
  | .key type n => .key type n
  | .link l => .link l

theorem CapAtom.atom_src (a : CapAtom) : a.atom.src = a.src := by cases a <;> rfl

def srcs (as : List Atom) : Str := as.flatMap Atom.src

@[simp] theorem srcs_nil : srcs [] = [] := rfl
@[simp] theorem srcs_cons (a : Atom) (as : List Atom) : srcs (a :: as) = a.src ++ srcs as := rfl
@[simp] theorem srcs_append (as bs : List Atom) : srcs (as ++ bs) = srcs as ++ srcs bs := by simp [srcs]

def Atom.isText : Atom → Bool
  | .text _ => true
  | _ => false

/-- Text, markers and keys. -/
def Atom.isPlain : Atom → Bool
  | .link _ => false
  | .web _ _ => false
  | .image _ _ _ => false
  | .math _ _ => false
  | .ref _ _ _ _ => false
  | _ => true

def Atom.isMath : Atom → Bool
  | .math _ _ => true
  | _ => false

def Atom.isRef : Atom → Bool
  | .ref _ _ _ _ => true
  | _ => false

/-- No references. -/
def NoRefs (as : List Atom) : Prop := ∀ a ∈ as, a.isRef = false

theorem Atom.plain_not_math {a : Atom} (h : a.isPlain = true) : a.isMath = false := by
  cases a <;> first | rfl | simp [Atom.isPlain] at h

theorem Atom.plain_not_ref {a : Atom} (h : a.isPlain = true) : a.isRef = false := by
  cases a <;> first | rfl | simp [Atom.isPlain] at h

def CapAtom.isText : CapAtom → Bool
  | .text _ => true
  | _ => false

def CapAtom.isLink : CapAtom → Bool
  | .link _ => true
  | _ => false

def Atom.isLink : Atom → Bool
  | .link _ => true
  | _ => false

/-- No tag with a meaning in wikitext begins or ends in the text, whatever follows it. -/
structure TagSafe (s : Str) : Prop where
  free : TagFree s
  last : s.getLast? ≠ some 0x3C
  slash : ¬ b!"</" <:+ s

/-- Text between elements; line breaks are possible. -/
structure TextOk (t : Str) : Prop where
  chars : ∀ c ∈ t, c ∉ b!"[]"
  pairs : ∀ c ∈ b!"'$", ¬ [c, c] <:+: t
  first : t.head? ≠ some 0x27
  last : ∀ c ∈ b!"'$", t.getLast? ≠ some c
  tags : TagSafe t
  marker : 0x5F ∈ t → ∃ c ∈ t, tokenChar c = false ∧ c ≠ 0x24

def CapAtom.Ok (env : ParserEnv) : CapAtom → Prop
  | .text t => TextOk t ∧ 0x7C ∉ t ∧ 0x0A ∉ t ∧ 0x7B ∉ t ∧ 0x3C ∉ t
  | .mark _ => True
  | .key type _ => type ≠ [] ∧ ∀ c ∈ type, tokenChar c = true
  | .link l => l.WellFormed env ∧ Words l.inner ∧ LabelText l.shown

/-- The text in front of the first element of a caption. -/
def capLead (c : List CapAtom) : Str := capSrc (c.takeWhile CapAtom.isText)

/-- The text behind the last element of a caption. -/
def capTrail (c : List CapAtom) : Str := capSrc (c.reverse.takeWhile CapAtom.isText).reverse

/-- A caption that is no option and neither a list nor a heading, without space around it. -/
structure CapOk (env : ParserEnv) (c : List CapAtom) : Prop where
  ok : ∀ a ∈ c, a.Ok env
  nonEmpty : capSrc c ≠ []
  lead : ∀ sp ∈ spaceChars, ¬ sp <+: capLead c
  start : ∀ x, (capLead c).head? = some x → x ∉ b!"*#;:="
  trail : ∀ sp ∈ spaceChars, ¬ sp <:+ capTrail c
  free : ¬ b!"mini" <+: capLead c ∧ ¬ b!"thumb" <+: capLead c ∧ ¬ b!"px" <:+ capTrail c
  option : ¬ IgnoredOption env (capLead c)

structure ImageOk (env : ParserEnv) (i : WikiImage) (file : Str) (cap : Option (List CapAtom)) : Prop where
  reads : ReadsImages env
  image : (withCap i cap).WellFormed env
  wanted : ¬ i.Unwanted env
  space : env.lower i.space ∈ env.config.list .filePrefixes
  file : file = i.file env
  words : Words (frontOf i)
  lead : ∀ sp ∈ spaceChars, ¬ sp <+: WikiImage.front i
  start : ∀ x, (WikiImage.front i).head? = some x → x ∉ b!"*#;:="
  trail : ∀ sp ∈ spaceChars, ¬ sp <:+ WikiImage.front i
  cap : ∀ c, cap = some c → CapOk env c

/-- A reference without characters that have a meaning for other steps. -/
structure RefOk (attrs : RefAttrs) (kind : RefKind RefText) : Prop where
  attributes : attrs.WellFormed
  chars : ∀ c ∈ attrs.text, c ∉ b!"[]{"
  pairs : ¬ b!"''" <:+: attrs.text
  name : kind = .mention → attrs.get b!"name" ≠ []
  written : ∀ c, kind = .define c → ∀ x ∈ c.written, x = 0x27 ∨ x ∈ c.marked
  text : ∀ c, kind = .define c → (∀ x ∈ c.marked, x ∉ b!"\n{<") ∧ ¬ b!"''" <:+: c.marked

def Atom.Ok (env : ParserEnv) : Atom → Prop
  | .text t => TextOk t
  | .mark _ => True
  | .key type _ => type ≠ [] ∧ ∀ c ∈ type, tokenChar c = true
  | .link l => l.WellFormed env ∧ Words l.inner ∧ LabelText l.shown
  | .web url label => (Bracket.web url label).WellFormed env ∧ Words (Bracket.web url label).inner ∧ LabelText label
  | .image i file cap => ImageOk env i file cap
  | .math attributes formula => FormulaOk attributes formula
  | .ref _ attrs _ note => RefOk attrs note

theorem CapAtom.Ok.atom {env : ParserEnv} {a : CapAtom} (h : a.Ok env) : a.atom.Ok env := by
  cases a with
  | text t => exact h.1
  | _ => exact h

/-! ### Characters -/

theorem tokenKey_chars {type : Str} (n : Nat) (h : ∀ c ∈ type, tokenChar c = true) :
    ∀ c ∈ tokenKey type n, c = 0x24 ∨ tokenChar c = true := by
  intro c hc
  have hd : ∀ c ∈ decimal n, tokenChar c = true := by
    intro c hc
    have := decimal_digits n c hc
    simp only [tokenChar, Bool.or_eq_true, Bool.and_eq_true, decide_eq_true_eq]
    exact Or.inr this
  rw [tokenKey] at hc
  simp only [List.mem_append] at hc
  rcases hc with (((hc | hc) | hc) | hc) | hc
  · revert c; decide
  · exact Or.inr (h c hc)
  · revert c; decide
  · exact Or.inr (hd c hc)
  · revert c; decide

theorem marker_chars (m : Marker) : ∀ c ∈ (Element.marker m).code, c = 0x24 ∨ tokenChar c = true := by
  cases m <;> decide

theorem Words.not_mem {t : Str} (h : Words t) {c : Byte} (hc : c ∈ b!"\n[]{<") : c ∉ t := fun hm => h.chars c hm hc

theorem TextOk.not_mem {t : Str} (h : TextOk t) {c : Byte} (hc : c ∈ b!"[]") : c ∉ t := fun hm => h.chars c hm hc

theorem not_mem_keyed {s : Str} (h : ∀ c ∈ s, c = 0x24 ∨ tokenChar c = true) {c : Byte} (h1 : c ≠ 0x24) (h2 : tokenChar c = false) : c ∉ s := by
  intro hm
  rcases h c hm with h | h
  · exact h1 h
  · rw [h2] at h; exact absurd h (by simp)

theorem mem_capSrc {c : List CapAtom} {x : Byte} : x ∈ capSrc c ↔ ∃ a ∈ c, x ∈ a.src := List.mem_flatMap

theorem CapAtom.Ok.not_mem {env : ParserEnv} {a : CapAtom} (h : a.Ok env) {c : Byte} (hc : c ∈ b!"{<\n") : c ∉ a.src := by
  have h1 : c ≠ 0x24 ∧ tokenChar c = false ∧ c ≠ 0x5B ∧ c ≠ 0x5D := by revert hc; revert c; decide
  cases a with
  | text t =>
    intro hm
    simp only [List.mem_cons, List.not_mem_nil, or_false] at hc
    rcases hc with rfl | rfl | rfl
    · exact h.2.2.2.1 hm
    · exact h.2.2.2.2 hm
    · exact h.2.2.1 hm
  | mark m => exact not_mem_keyed (marker_chars m) h1.1 h1.2.1
  | key type n => exact not_mem_keyed (tokenKey_chars n h.2) h1.1 h1.2.1
  | link l =>
    have := Words.not_mem h.2.1 (c := c) (by revert hc; simp only [List.mem_cons, List.not_mem_nil, or_false]; tauto)
    simp [CapAtom.src, this, h1.2.2]

theorem ImageOk.not_mem {env : ParserEnv} {i : WikiImage} {file : Str} {cap : Option (List CapAtom)} (h : ImageOk env i file cap) {c : Byte}
    (hc : c ∈ b!"{<\n") : c ∉ (Atom.image i file cap).src := by
  have h1 : c ≠ 0x5B ∧ c ≠ 0x5D ∧ c ≠ 0x7C := by revert hc; revert c; decide
  have h2 := Words.not_mem h.words (c := c) (by revert hc; simp only [List.mem_cons, List.not_mem_nil, or_false]; tauto)
  have h3 : c ∉ capText cap := by
    cases hcap : cap with
    | none => simp [capText]
    | some a =>
      simp only [capText, List.cons_append, List.nil_append, List.mem_cons, h1.2.2, false_or]
      rw [mem_capSrc]
      rintro ⟨x, hx, hm⟩
      exact ((h.cap a hcap).ok x hx).not_mem hc hm
  simp [Atom.src, h1, h2, h3]

theorem RefAttrs.chars_ok {as : RefAttrs} (h : as.WellFormed) : ∀ c ∈ as.text, c ≠ 0x3C ∧ c ≠ 0x3E ∧ c ≠ 0x0A := by
  intro c hc
  obtain ⟨a, ha, hc⟩ := List.mem_flatMap.mp hc
  have hw := h.each a ha
  unfold RefAttr.text at hc
  have key : c ∈ a.key → c ≠ 0x3C ∧ c ≠ 0x3E ∧ c ≠ 0x0A := fun hc => by
    obtain ⟨-, -, h1, -, h2, h3⟩ := hw.key c hc
    exact ⟨h1, h2, h3⟩
  have value : c ∈ a.value → c ≠ 0x3C ∧ c ≠ 0x3E ∧ c ≠ 0x0A := fun hc => (hw.value c hc).2
  simp only [List.mem_append, List.mem_cons, List.not_mem_nil, or_false] at hc
  rcases hc with ((rfl | hc) | rfl) | hc
  · decide
  · exact key hc
  · decide
  · split at hc
    · simp only [List.mem_append, List.mem_cons, List.not_mem_nil, or_false] at hc
      rcases hc with (rfl | hc) | rfl
      · decide
      · exact value hc
      · decide
    · exact value hc

/-- Characters that are not in the tag of a reference apart from its beginning and its end. -/
theorem RefOk.not_mem {attrs : RefAttrs} {kind : RefKind RefText} (h : RefOk attrs kind) {c : Byte} (hc : c ∈ b!"{\n") (number space : Nat) :
    c ∉ (Atom.ref number attrs space kind).src := by
  have h1 : c ∉ attrs.text := by
    intro hm
    simp only [List.mem_cons, List.not_mem_nil, or_false] at hc
    rcases hc with rfl | rfl
    · exact h.chars _ hm (by decide)
    · exact (RefAttrs.chars_ok h.attributes _ hm).2.2 rfl
  have h2 : c ∉ refWord kind ∧ c ∉ b!"/>" ∧ c ∉ b!">" ∧ c ∉ b!"</ref>" ∧ c ∉ spaces space ∧ c ∈ b!"\n{<" := by
    have h3 : c ∉ b!"<references" ∧ c ∉ b!"/>" ∧ c ∉ b!">" ∧ c ∉ b!"</ref>" ∧ c ≠ 0x20 ∧ c ∈ b!"\n{<" := by clear h1; revert hc; revert c; decide
    refine ⟨fun hm => h3.1 ?_, h3.2.1, h3.2.2.1, h3.2.2.2.1, fun hm => h3.2.2.2.2.1 (List.eq_of_mem_replicate hm), h3.2.2.2.2.2⟩
    cases kind with
    | list _ => exact hm
    | _ => exact (show b!"<references" = b!"<ref" ++ b!"erences" from rfl) ▸ List.mem_append_left _ hm
  have h3 : c ∉ refRest RefText.marked kind := by
    cases ht : kind with
    | mention => exact h2.2.1
    | list _ => exact h2.2.1
    | define t =>
      have := fun hm => (h.text t ht).1 c hm h2.2.2.2.2.2
      simp only [refRest, List.mem_append, not_or]
      exact ⟨⟨h2.2.2.1, this⟩, h2.2.2.2.1⟩
  simp only [Atom.src, List.mem_append, not_or]
  exact ⟨⟨⟨h2.1, h1⟩, h2.2.2.2.2.1⟩, h3⟩

/-- The text is free of braces; only the line at which a table begins is not. -/
def NoBraces (as : List Atom) : Prop := ∀ t, .text t ∈ as → (0x7B : Byte) ∉ t

theorem Atom.Ok.no_brace {env : ParserEnv} {a : Atom} (h : a.Ok env) (hb : ∀ t, a = .text t → (0x7B : Byte) ∉ t) (hm : a.isMath = false) :
    (0x7B : Byte) ∉ a.src := by
  cases a with
  | text t => exact hb t rfl
  | mark m => exact not_mem_keyed (marker_chars m) (by decide) (by decide)
  | key type n => exact not_mem_keyed (tokenKey_chars n h.2) (by decide) (by decide)
  | link l =>
    have := Words.not_mem h.2.1 (c := 0x7B) (by decide)
    simp [Atom.src, this]
  | web url label =>
    have := Words.not_mem h.2.1 (c := 0x7B) (by decide)
    simp [Atom.src, this]
  | image i file cap => exact ImageOk.not_mem h (by decide)
  | math attributes formula => simp [Atom.isMath] at hm
  | ref number attrs space text => exact RefOk.not_mem h (by decide) _ _

theorem tagSafe_of_no_lt {s : Str} (h : (0x3C : Byte) ∉ s) : TagSafe s :=
  ⟨tagFree_of_no_lt h, fun hl => h (List.mem_of_getLast? hl), fun hs => h (hs.subset (by simp))⟩

theorem Atom.Ok.no_lt {env : ParserEnv} {a : Atom} (h : a.Ok env) (ht : ∀ t, a = .text t → (0x3C : Byte) ∉ t) (hm : a.isMath = false)
    (hr : a.isRef = false) : (0x3C : Byte) ∉ a.src := by
  cases a with
  | text t => exact ht t rfl
  | mark m => exact not_mem_keyed (marker_chars m) (by decide) (by decide)
  | key type n => exact not_mem_keyed (tokenKey_chars n h.2) (by decide) (by decide)
  | link l =>
    have := Words.not_mem h.2.1 (c := 0x3C) (by decide)
    simp [Atom.src, this]
  | web url label =>
    have := Words.not_mem h.2.1 (c := 0x3C) (by decide)
    simp [Atom.src, this]
  | image i file cap => exact ImageOk.not_mem h (by decide)
  | math attributes formula => simp [Atom.isMath] at hm
  | ref number attrs space text => simp [Atom.isRef] at hr

theorem Atom.Ok.tagSafe {env : ParserEnv} {a : Atom} (h : a.Ok env) (hm : a.isMath = false) (hr : a.isRef = false) : TagSafe a.src := by
  cases a with
  | text t => exact TextOk.tags h
  | _ => exact tagSafe_of_no_lt (h.no_lt (by simp) hm hr)

theorem Atom.Ok.no_newline {env : ParserEnv} {a : Atom} (h : a.Ok env) (ht : a.isText = false) : (0x0A : Byte) ∉ a.src := by
  cases a with
  | text t => simp [Atom.isText] at ht
  | mark m => exact not_mem_keyed (marker_chars m) (by decide) (by decide)
  | key type n => exact not_mem_keyed (tokenKey_chars n h.2) (by decide) (by decide)
  | link l =>
    have := Words.not_mem h.2.1 (c := 0x0A) (by decide)
    simp [Atom.src, this]
  | web url label =>
    have := Words.not_mem h.2.1 (c := 0x0A) (by decide)
    simp [Atom.src, this]
  | image i file cap => exact ImageOk.not_mem h (by decide)
  | math attributes formula =>
    have h1 : (0x0A : Byte) ∉ attributes := fun hc => FormulaOk.attributes h _ hc (by decide)
    have h2 : (0x0A : Byte) ∉ formula := fun hc => FormulaOk.chars h _ hc (by decide)
    simp [Atom.src, h1, h2]
  | ref number attrs space text => exact RefOk.not_mem h (by decide) _ _

theorem Atom.Ok.no_bracket {env : ParserEnv} {a : Atom} (h : a.Ok env) (hp : a.isPlain = true ∨ a.isMath = true) : (0x5B : Byte) ∉ a.src := by
  cases a with
  | text t => exact TextOk.not_mem h (by decide)
  | mark m => exact not_mem_keyed (marker_chars m) (by decide) (by decide)
  | key type n => exact not_mem_keyed (tokenKey_chars n h.2) (by decide) (by decide)
  | link l => simp [Atom.isPlain, Atom.isMath] at hp
  | web url label => simp [Atom.isPlain, Atom.isMath] at hp
  | image i file cap => simp [Atom.isPlain, Atom.isMath] at hp
  | math attributes formula =>
    have h1 : (0x5B : Byte) ∉ attributes := fun hc => FormulaOk.attributes h _ hc (by decide)
    have h2 : (0x5B : Byte) ∉ formula := fun hc => FormulaOk.chars h _ hc (by decide)
    simp [Atom.src, h1, h2]
  | ref number attrs space text => simp [Atom.isPlain, Atom.isMath] at hp

/-- The first character of an element. -/
theorem Atom.src_head {a : Atom} (ht : a.isText = false) : ∃ c r, a.src = c :: r ∧ (c = 0x24 ∨ c = 0x5B ∨ c = 0x3C) := by
  cases a with
  | text t => simp [Atom.isText] at ht
  | mark m => exact ⟨_, _, rfl, Or.inl rfl⟩
  | key type n => exact ⟨_, _, rfl, Or.inl rfl⟩
  | link l => exact ⟨_, _, rfl, Or.inr (Or.inl rfl)⟩
  | web url label => exact ⟨_, _, rfl, Or.inr (Or.inl rfl)⟩
  | image i file cap => exact ⟨_, _, rfl, Or.inr (Or.inl rfl)⟩
  | math attributes formula => exact ⟨_, _, rfl, Or.inr (Or.inr rfl)⟩
  | ref number attrs space kind => cases kind <;> exact ⟨_, _, rfl, Or.inr (Or.inr rfl)⟩

/-- The last character of an element. -/
theorem Atom.src_last {a : Atom} (ht : a.isText = false) : ∃ c r, a.src = r ++ [c] ∧ (c = 0x24 ∨ c = 0x5D ∨ c = 0x3E) := by
  cases a with
  | text t => simp [Atom.isText] at ht
  | mark m => exact ⟨0x24, b!"$$" ++ m.name ++ b!"$", by simp [Atom.src, Element.code], Or.inl rfl⟩
  | key type n => exact ⟨0x24, b!"$$TOKEN_" ++ type ++ b!"_" ++ decimal n ++ b!"$", by simp [Atom.src, tokenKey], Or.inl rfl⟩
  | link l => exact ⟨0x5D, b!"[[" ++ l.inner ++ b!"]", by simp [Atom.src], Or.inr (Or.inl rfl)⟩
  | web url label => exact ⟨0x5D, _, rfl, Or.inr (Or.inl rfl)⟩
  | image i file cap => exact ⟨0x5D, b!"[[" ++ frontOf i ++ capText cap ++ b!"]", by simp [Atom.src], Or.inr (Or.inl rfl)⟩
  | math attributes formula => exact ⟨0x3E, b!"<math" ++ attributes ++ b!">" ++ formula ++ b!"</math", by simp [Atom.src], Or.inr (Or.inr rfl)⟩
  | ref number attrs space text =>
    cases text with
    | define c => exact ⟨0x3E, b!"<ref" ++ attrs.text ++ spaces space ++ b!">" ++ c.marked ++ b!"</ref", by simp [Atom.src, refRest, refWord], Or.inr (Or.inr rfl)⟩
    | mention => exact ⟨0x3E, b!"<ref" ++ attrs.text ++ spaces space ++ b!"/", by simp [Atom.src, refRest, refWord], Or.inr (Or.inr rfl)⟩
    | list _ => exact ⟨0x3E, b!"<references" ++ attrs.text ++ spaces space ++ b!"/", by simp [Atom.src, refRest, refWord], Or.inr (Or.inr rfl)⟩

/-! ### Pairs of equal characters -/

theorem no_pair_append {c : Byte} {x y : Str} (hx : ¬ [c, c] <:+: x) (hl : x.getLast? ≠ some c ∨ y.head? ≠ some c) (hy : ¬ [c, c] <:+: y) :
    ¬ [c, c] <:+: x ++ y := by
  induction x with
  | nil => simpa using hy
  | cons d x ih =>
    intro h
    rw [List.cons_append, List.infix_cons_iff] at h
    rcases h with h | h
    · rw [List.cons_prefix_cons] at h
      obtain ⟨rfl, h⟩ := h
      cases x with
      | nil =>
        cases y with
        | nil => simp at h
        | cons e y =>
          simp at h
          subst h
          simp at hl
      | cons e x =>
        simp at h
        subst h
        exact hx ⟨[], x, rfl⟩
    · refine ih (fun h => hx (List.infix_cons h)) ?_ h
      cases x with
      | nil => simp
      | cons e x => simpa using hl

theorem no_pair_flatten {c : Byte} (xs : List Str) (h : ∀ x ∈ xs, ¬ [c, c] <:+: x ∧ x.getLast? ≠ some c) : ¬ [c, c] <:+: xs.flatten := by
  induction xs with
  | nil => simp
  | cons x xs ih =>
    rw [List.flatten_cons]
    exact no_pair_append (h x (by simp)).1 (Or.inl (h x (by simp)).2) (ih fun y hy => h y (by simp [hy]))

theorem no_pair_of_not_mem {c : Byte} {s : Str} (h : c ∉ s) : ¬ [c, c] <:+: s := fun hi => h (hi.subset (by simp))

theorem last_of_not_mem {c : Byte} {s : Str} (h : c ∉ s) : s.getLast? ≠ some c := fun hl => h (List.mem_of_getLast? hl)

theorem last_append {c : Byte} {x y : Str} (hx : x.getLast? ≠ some c) (hy : y.getLast? ≠ some c) : (x ++ y).getLast? ≠ some c := by
  rw [List.getLast?_append]
  cases hl : y.getLast? with
  | none => simpa using hx
  | some d => rw [hl] at hy; simpa using hy

theorem last_flatten {c : Byte} (xs : List Str) (h : ∀ x ∈ xs, x.getLast? ≠ some c) : xs.flatten.getLast? ≠ some c := by
  induction xs with
  | nil => simp
  | cons x xs ih => exact last_append (h x (by simp)) (ih fun y hy => h y (by simp [hy]))

theorem no_quotes_between {a b x : Str} (ha : (0x27 : Byte) ∉ a) (hb : (0x27 : Byte) ∉ b) (hx : ¬ b!"''" <:+: x) (hl : x.getLast? ≠ some 0x27) :
    ¬ b!"''" <:+: a ++ x ++ b ∧ (a ++ x ++ b).getLast? ≠ some 0x27 := by
  have h1 : (a ++ x).getLast? ≠ some 0x27 := last_append (last_of_not_mem ha) hl
  exact ⟨no_pair_append (no_pair_append (no_pair_of_not_mem ha) (Or.inl (last_of_not_mem ha)) hx) (Or.inl h1) (no_pair_of_not_mem hb),
    last_append h1 (last_of_not_mem hb)⟩

theorem CapAtom.Ok.no_quotes {env : ParserEnv} {a : CapAtom} (h : a.Ok env) : ¬ b!"''" <:+: a.src ∧ a.src.getLast? ≠ some 0x27 := by
  cases a with
  | text t => exact ⟨TextOk.pairs h.1 _ (by decide), TextOk.last h.1 _ (by decide)⟩
  | mark m =>
    have := not_mem_keyed (marker_chars m) (c := 0x27) (by decide) (by decide)
    exact ⟨no_pair_of_not_mem this, last_of_not_mem this⟩
  | key type n =>
    have := not_mem_keyed (tokenKey_chars n h.2) (c := 0x27) (by decide) (by decide)
    exact ⟨no_pair_of_not_mem this, last_of_not_mem this⟩
  | link l => exact no_quotes_between (by decide) (by decide) (h.2.1.pairs _ (by decide)) (h.2.1.last 0x27 (by decide))

theorem capText_no_quotes {env : ParserEnv} {cap : Option (List CapAtom)} (h : ∀ c, cap = some c → ∀ a ∈ c, a.Ok env) :
    ¬ b!"''" <:+: capText cap ∧ (capText cap).getLast? ≠ some 0x27 := by
  cases cap with
  | none => exact ⟨no_pair_of_not_mem (by simp [capText]), by simp [capText]⟩
  | some c =>
    have e : capText (some c) = (b!"|" :: c.map CapAtom.src).flatten := by simp [capText, capSrc, List.flatMap_def]
    have hall : ∀ x ∈ b!"|" :: c.map CapAtom.src, ¬ b!"''" <:+: x ∧ x.getLast? ≠ some 0x27 := by
      intro x hx
      rcases List.mem_cons.mp hx with rfl | hx
      · exact ⟨no_pair_of_not_mem (by decide), by decide⟩
      · obtain ⟨a, ha, rfl⟩ := List.mem_map.mp hx
        exact (h c rfl a ha).no_quotes
    rw [e]
    exact ⟨no_pair_flatten _ hall, last_flatten _ fun x hx => (hall x hx).2⟩

theorem Atom.Ok.no_quotes {env : ParserEnv} {a : Atom} (h : a.Ok env) : ¬ b!"''" <:+: a.src ∧ a.src.getLast? ≠ some 0x27 := by
  cases a with
  | text t => exact ⟨TextOk.pairs h _ (by decide), TextOk.last h _ (by decide)⟩
  | mark m =>
    have := not_mem_keyed (marker_chars m) (c := 0x27) (by decide) (by decide)
    exact ⟨no_pair_of_not_mem this, last_of_not_mem this⟩
  | key type n =>
    have := not_mem_keyed (tokenKey_chars n h.2) (c := 0x27) (by decide) (by decide)
    exact ⟨no_pair_of_not_mem this, last_of_not_mem this⟩
  | link l => exact no_quotes_between (by decide) (by decide) (h.2.1.pairs _ (by decide)) (h.2.1.last 0x27 (by decide))
  | web url label => exact no_quotes_between (by decide) (by decide) (h.2.1.pairs _ (by decide)) (h.2.1.last 0x27 (by decide))
  | image i file cap =>
    have h : ImageOk env i file cap := h
    obtain ⟨h1, h2⟩ := capText_no_quotes (env := env) fun c hc => (h.cap c hc).ok
    have h3 : ¬ b!"''" <:+: frontOf i ++ capText cap := no_pair_append (h.words.pairs _ (by decide)) (Or.inl (h.words.last _ (by decide))) h1
    have := no_quotes_between (a := b!"[[") (b := b!"]]") (by decide) (by decide) h3 (last_append (h.words.last _ (by decide)) h2)
    rwa [← List.append_assoc] at this
  | math attributes formula =>
    have h1 : (0x27 : Byte) ∉ attributes := fun hc => FormulaOk.attributes h _ hc (by decide)
    have h0 : (0x27 : Byte) ∉ b!"<math" ++ attributes ++ b!">" := by simp [h1]
    have h2 := FormulaOk.pairs h 0x27 (by decide)
    have h3 : ¬ b!"''" <:+: b!"<math" ++ attributes ++ b!">" ++ formula :=
      no_pair_append (no_pair_of_not_mem h0) (Or.inl (last_of_not_mem h0)) h2
    refine ⟨no_pair_append h3 (Or.inr (by decide)) (no_pair_of_not_mem (by decide)), ?_⟩
    rw [Atom.src, List.getLast?_append]
    simp
  | ref number attrs space text =>
    have h : RefOk attrs text := h
    have h0 : (0x27 : Byte) ∉ spaces space := fun hm => absurd (List.eq_of_mem_replicate hm) (by decide)
    have hw : (0x27 : Byte) ∉ refWord text := by cases text <;> simp [refWord]
    have h1 : ¬ b!"''" <:+: refWord text ++ attrs.text := no_pair_append (c := 0x27) (no_pair_of_not_mem hw) (Or.inl (last_of_not_mem hw)) h.pairs
    have h2 : (refRest RefText.marked text).head? ≠ some 0x27 := by cases text <;> simp [refRest]
    have h3 : (spaces space ++ refRest RefText.marked text).head? ≠ some 0x27 := by
      cases space with
      | zero => exact h2
      | succ n => simp [spaces, List.replicate_succ]
    have h4 : ¬ b!"''" <:+: refRest RefText.marked text ∧ (refRest RefText.marked text).getLast? ≠ some 0x27 := by
      cases ht : text with
      | mention => exact ⟨no_pair_of_not_mem (by decide), by simp [refRest]⟩
      | list _ => exact ⟨no_pair_of_not_mem (by simp [refRest]), by simp [refRest]⟩
      | define c =>
        refine ⟨no_pair_append (c := 0x27) (no_pair_append (by decide) (Or.inl (by decide)) (h.text c ht).2) (Or.inr (by decide)) (by decide), ?_⟩
        rw [refRest, List.getLast?_append]
        simp
    have h5 : ¬ b!"''" <:+: spaces space ++ refRest RefText.marked text :=
      no_pair_append (no_pair_of_not_mem h0) (Or.inl (last_of_not_mem h0)) h4.1
    rw [Atom.src, List.append_assoc]
    refine ⟨no_pair_append h1 (Or.inr h3) h5, ?_⟩
    have : refRest RefText.marked text ≠ [] := by cases text <;> simp [refRest]
    rw [← List.append_assoc, List.getLast?_append_of_ne_nil _ this]
    exact h4.2

theorem srcs_no_quotes {env : ParserEnv} {as : List Atom} (h : ∀ a ∈ as, a.Ok env) : ¬ b!"''" <:+: srcs as := by
  rw [srcs, List.flatMap_def]
  refine no_pair_flatten _ ?_
  intro x hx
  obtain ⟨a, ha, rfl⟩ := List.mem_map.mp hx
  exact (h a ha).no_quotes

theorem mem_srcs {as : List Atom} {c : Byte} : c ∈ srcs as ↔ ∃ a ∈ as, c ∈ a.src := List.mem_flatMap

theorem srcs_no_brace {env : ParserEnv} {as : List Atom} (h : ∀ a ∈ as, a.Ok env) (hb : NoBraces as) (hm : ∀ a ∈ as, a.isMath = false) :
    (0x7B : Byte) ∉ srcs as := by
  rw [mem_srcs]
  rintro ⟨a, ha, hc⟩
  exact (h a ha).no_brace (fun t e => hb t (e ▸ ha)) (hm a ha) hc

theorem srcs_no_bracket {env : ParserEnv} {as : List Atom} (h : ∀ a ∈ as, a.Ok env) (hp : ∀ a ∈ as, a.isPlain = true ∨ a.isMath = true) :
    (0x5B : Byte) ∉ srcs as := by
  rw [mem_srcs]
  rintro ⟨a, ha, hc⟩
  exact (h a ha).no_bracket (hp a ha) hc

/-! ### Tags -/

theorem onlyMath_of_no_lt {s : Str} (h : (0x3C : Byte) ∉ s) : OnlyMath s := (tagFree_of_no_lt h).onlyMath

/-- An infix of a concatenation whose second part does not begin within it. -/
theorem infix_append_cases {p x y : Str} (h : p <:+: x ++ y) : p <:+: x ∨ p <:+: y ∨
    ∃ a b, a ≠ [] ∧ b ≠ [] ∧ p = a ++ b ∧ a <:+ x ∧ b <+: y := by
  induction x with
  | nil => exact Or.inr (Or.inl h)
  | cons d x ih =>
    rw [List.cons_append, List.infix_cons_iff] at h
    rcases h with h | h
    · rcases List.prefix_or_prefix_of_prefix h (List.prefix_append (d :: x) y) with h1 | h1
      · exact Or.inl h1.isInfix
      · obtain ⟨t, rfl⟩ := h1
        by_cases ht : t = []
        · subst ht; exact Or.inl (by simp)
        · refine Or.inr (Or.inr ⟨d :: x, t, by simp, ht, rfl, List.suffix_refl _, ?_⟩)
          rw [← List.cons_append, List.prefix_append_right_inj] at h
          exact h
    · rcases ih h with h | h | ⟨a, b, h1, h2, h3, h4, h5⟩
      · exact Or.inl (List.infix_cons h)
      · exact Or.inr (Or.inl h)
      · exact Or.inr (Or.inr ⟨a, b, h1, h2, h3, h4.trans (List.suffix_cons _ _), h5⟩)

/-- A tag does not begin in one part and end in the other. -/
theorem tag_append {x y : Str} {c : Byte} (h1 : x.getLast? ≠ some 0x3C) (h2 : ¬ b!"</" <:+ x) :
    ([0x3C, c] <:+: x ++ y → [0x3C, c] <:+: x ∨ [0x3C, c] <:+: y) ∧
      ([0x3C, 0x2F, c] <:+: x ++ y → [0x3C, 0x2F, c] <:+: x ∨ [0x3C, 0x2F, c] <:+: y) := by
  have hl : ∀ {a : Str}, a <:+ x → a ≠ [0x3C] := by
    rintro _ ⟨t, rfl⟩ rfl
    exact h1 (by simp)
  refine ⟨fun hi => ?_, fun hi => ?_⟩
  · rcases infix_append_cases hi with hi | hi | ⟨a, b, ha, hb, e, hax, hby⟩
    · exact .inl hi
    · exact .inr hi
    · obtain ⟨d, a, rfl⟩ := List.exists_cons_of_ne_nil ha
      obtain ⟨d', b, rfl⟩ := List.exists_cons_of_ne_nil hb
      cases a with
      | nil =>
        simp only [List.cons_append, List.cons.injEq] at e
        exact absurd (by rw [e.1]) (hl hax)
      | cons d2 a => simp at e
  · rcases infix_append_cases hi with hi | hi | ⟨a, b, ha, hb, e, hax, hby⟩
    · exact .inl hi
    · exact .inr hi
    · obtain ⟨d, a, rfl⟩ := List.exists_cons_of_ne_nil ha
      obtain ⟨d', b, rfl⟩ := List.exists_cons_of_ne_nil hb
      match a with
      | [] =>
        simp only [List.cons_append, List.cons.injEq] at e
        exact absurd (by rw [e.1]) (hl hax)
      | [d2] =>
        simp only [List.cons_append, List.nil_append, List.cons.injEq] at e
        obtain ⟨rfl, rfl, _⟩ := e
        exact absurd hax h2
      | d2 :: d3 :: a => simp at e

theorem OnlyMath.append {x y : Str} (hx : OnlyMath x) (hy : OnlyMath y) (h1 : x.getLast? ≠ some 0x3C) (h2 : ¬ b!"</" <:+ x) : OnlyMath (x ++ y) :=
  ⟨fun c ht hc hi => ((tag_append h1 h2).1 hi).elim (hx.start c ht hc) (hy.start c ht hc),
    fun c ht hc hi => ((tag_append h1 h2).2 hi).elim (hx.stop c ht hc) (hy.stop c ht hc)⟩

theorem TagSafe.append {x y : Str} (hx : TagSafe x) (hy : TagSafe y) : TagSafe (x ++ y) := by
  refine ⟨⟨fun c ht hi => ((tag_append hx.last hx.slash).1 hi).elim (hx.free.start c ht) (hy.free.start c ht),
    fun c ht hi => ((tag_append hx.last hx.slash).2 hi).elim (hx.free.stop c ht) (hy.free.stop c ht)⟩, last_append hx.last hy.last, ?_⟩
  intro hs
  rcases List.suffix_or_suffix_of_suffix hs (List.suffix_append x y) with h | h
  · exact hy.slash h
  · match y, h with
    | [], _ => exact hx.slash (by simpa using hs)
    | [c], h =>
      have : c = 0x2F := by
        obtain ⟨t, e⟩ := h
        have := congrArg List.getLast? e
        simpa using this
      subst this
      obtain ⟨t, e⟩ := hs
      have : t ++ [0x3C] = x := by
        have : (t ++ [0x3C]) ++ [0x2F] = x ++ [0x2F] := by simpa using e
        exact List.append_cancel_right this
      exact hx.last (by rw [← this]; simp)
    | c :: c' :: y, h =>
      have := h.length_le
      simp at this
      have : y = [] := by simpa using this
      subst this
      exact hy.slash (by rw [h.eq_of_length (by simp)]; exact List.suffix_refl _)

/-- No tag begins in a text that is not empty. -/
theorem TagSafe.not_prefix {x : Str} (h : TagSafe x) (hne : x ≠ []) (rest : Str) {c : Byte} (hc : TagCharacter c) : ¬ [0x3C, c] <+: x ++ rest := by
  intro hp
  match x, hne, h with
  | [d], _, h =>
    simp only [List.cons_append, List.cons_prefix_cons] at hp
    exact h.last (by simp [hp.1])
  | d :: d' :: x, _, h =>
    simp only [List.cons_append, List.cons_prefix_cons] at hp
    exact h.free.start c hc ⟨[], x, by rw [hp.1, hp.2.1]; simp⟩

theorem TagSafe.suffix {x y : Str} (h : TagSafe y) (hs : x <:+ y) : TagSafe x := by
  refine ⟨h.free.suffix hs, ?_, fun hx => h.slash (hx.trans hs)⟩
  obtain ⟨t, rfl⟩ := hs
  by_cases hx : x = []
  · simp [hx]
  · have := h.last
    rwa [List.getLast?_append_of_ne_nil _ hx] at this

theorem srcs_tagSafe {env : ParserEnv} {as : List Atom} (h : ∀ a ∈ as, a.Ok env) (hm : ∀ a ∈ as, a.isMath = false) (hr : NoRefs as) :
    TagSafe (srcs as) := by
  induction as with
  | nil => exact tagSafe_of_no_lt (by simp)
  | cons a as ih =>
    exact ((h a (by simp)).tagSafe (hm a (by simp)) (hr a (by simp))).append
      (ih (fun x hx => h x (by simp [hx])) (fun x hx => hm x (by simp [hx])) fun x hx => hr x (by simp [hx]))

theorem math_onlyMath {attributes formula : Str} (h : FormulaOk attributes formula) : OnlyMath (Atom.math attributes formula).src := by
  have h1 : (0x3C : Byte) ∉ attributes ++ b!">" ++ formula := by
    have h1 : (0x3C : Byte) ∉ attributes := fun hc => h.attributes _ hc (by decide)
    have h2 : (0x3C : Byte) ∉ formula := fun hc => h.chars _ hc (by decide)
    simp [h1, h2]
  have e : (Atom.math attributes formula).src = 0x3C :: 0x6D :: (b!"ath" ++ (attributes ++ b!">" ++ formula) ++ 0x3C :: 0x2F :: 0x6D :: b!"ath>") := by
    simp [Atom.src]
  have h2 : (0x3C : Byte) ∉ b!"ath" ++ (attributes ++ b!">" ++ formula) := by simpa using h1
  generalize b!"ath" ++ (attributes ++ b!">" ++ formula) = z at e h2
  rw [e]
  have h4 : OnlyMath (z ++ 0x3C :: 0x2F :: 0x6D :: b!"ath>") := by
    refine OnlyMath.append (onlyMath_of_no_lt h2) ⟨?_, ?_⟩ (tagSafe_of_no_lt h2).last (tagSafe_of_no_lt h2).slash
    · intro c ht hm hi
      simp [List.infix_cons_iff] at hi
      subst hi
      revert ht
      unfold TagCharacter
      decide
    · intro c _ hm hi
      simp [List.infix_cons_iff] at hi
      exact hm hi
  refine ⟨?_, ?_⟩
  · intro c ht hm hi
    rw [List.infix_cons_iff, List.infix_cons_iff] at hi
    rcases hi with hi | hi | hi
    · simp at hi; exact hm hi
    · simp at hi
    · exact h4.start c ht hm hi
  · intro c ht hm hi
    rw [List.infix_cons_iff, List.infix_cons_iff] at hi
    rcases hi with hi | hi | hi
    · simp at hi
    · simp at hi
    · exact h4.stop c ht hm hi

theorem Atom.Ok.onlyMath {env : ParserEnv} {a : Atom} (h : a.Ok env) (hr : a.isRef = false) :
    OnlyMath a.src ∧ a.src.getLast? ≠ some 0x3C ∧ ¬ b!"</" <:+ a.src := by
  by_cases hm : a.isMath = true
  · cases a <;> simp [Atom.isMath] at hm
    rename_i attributes formula
    have hl : (Atom.math attributes formula).src.getLast? = some 0x3E := by
      rw [Atom.src, List.getLast?_append]
      rfl
    refine ⟨math_onlyMath h, by rw [hl]; decide, ?_⟩
    rintro ⟨t, e⟩
    rw [← e] at hl
    simp at hl
  · have := h.tagSafe (by simpa using hm) hr
    exact ⟨this.free.onlyMath, this.last, this.slash⟩

/-- The only tags of a line are those of formulas. -/
theorem srcs_onlyMath {env : ParserEnv} {as : List Atom} (h : ∀ a ∈ as, a.Ok env) (hr : NoRefs as) : OnlyMath (srcs as) := by
  induction as with
  | nil => exact onlyMath_of_no_lt (by simp)
  | cons a as ih =>
    obtain ⟨h1, h2, h3⟩ := (h a (by simp)).onlyMath (hr a (by simp))
    exact h1.append (ih (fun x hx => h x (by simp [hx])) fun x hx => hr x (by simp [hx])) h2 h3

/-- Tags do not extend beyond the end of a line. -/
theorem onlyMath_lines {ls : List Str} (h : ∀ l ∈ ls, OnlyMath l) : OnlyMath (join b!"\n" ls) :=
  ⟨fun c ht h1 => not_infix_lines (by simp) (tagCharacter_not_newline ht).1 ls fun l hl => (h l hl).start c ht h1,
    fun c ht h1 => not_infix_lines (by simp) (tagCharacter_not_newline ht).2 ls fun l hl => (h l hl).stop c ht h1⟩

/-! ### The beginning and the end of a line -/

/-- The text in front of the first element. -/
def leadText (as : List Atom) : Str := srcs (as.takeWhile Atom.isText)

/-- The text behind the last element. -/
def trailText (as : List Atom) : Str := srcs (as.reverse.takeWhile Atom.isText).reverse

theorem dropWhile_cases {α : Type} (p : α → Bool) (as : List α) :
    as.dropWhile p = [] ∨ ∃ a r, as.dropWhile p = a :: r ∧ p a = false := by
  cases h : as.dropWhile p with
  | nil => exact Or.inl rfl
  | cons a r =>
    refine Or.inr ⟨a, r, rfl, ?_⟩
    have := List.head?_dropWhile_not p as
    rw [h] at this
    simpa using this

theorem srcs_lead (as : List Atom) : ∃ r, srcs as = leadText as ++ r ∧ (r = [] ∨ ∃ c r', r = c :: r' ∧ (c = 0x24 ∨ c = 0x5B ∨ c = 0x3C)) := by
  refine ⟨srcs (as.dropWhile Atom.isText), ?_, ?_⟩
  · rw [leadText, ← srcs_append, List.takeWhile_append_dropWhile]
  · rcases dropWhile_cases Atom.isText as with h | ⟨a, r, h, ha⟩
    · exact Or.inl (by rw [h]; rfl)
    · right
      obtain ⟨c, r', e, hc⟩ := Atom.src_head ha
      exact ⟨c, r' ++ srcs r, by rw [h, srcs_cons, e]; rfl, hc⟩

theorem srcs_trail (as : List Atom) : ∃ r, srcs as = r ++ trailText as ∧ (r = [] ∨ ∃ c r', r = r' ++ [c] ∧ (c = 0x24 ∨ c = 0x5D ∨ c = 0x3E)) := by
  refine ⟨srcs (as.reverse.dropWhile Atom.isText).reverse, ?_, ?_⟩
  · rw [trailText, ← srcs_append, ← List.reverse_append, List.takeWhile_append_dropWhile, List.reverse_reverse]
  · rcases dropWhile_cases Atom.isText as.reverse with h | ⟨a, r, h, ha⟩
    · exact Or.inl (by rw [h]; rfl)
    · right
      obtain ⟨c, r', e, hc⟩ := Atom.src_last ha
      exact ⟨c, srcs r.reverse ++ r', by rw [h]; simp [e], hc⟩

theorem space_chars_not : ∀ sp ∈ spaceChars, (0x24 : Byte) ∉ sp ∧ (0x5B : Byte) ∉ sp ∧ (0x5D : Byte) ∉ sp ∧ (0x27 : Byte) ∉ sp ∧
    (0x3C : Byte) ∉ sp ∧ (0x3E : Byte) ∉ sp := by decide

theorem suffix_of_suffix_sep {α : Type} [DecidableEq α] {c : α} {a b p : List α} (hc : c ∉ p) (h : p <:+ b ++ c :: a) : p <:+ a := by
  rw [← List.reverse_prefix] at h ⊢
  refine prefix_of_prefix_sep (c := c) (b := b.reverse) (by simpa using hc) ?_
  simpa using h

/-- There is no space at the beginning and the end, and the line does not begin like a list or a heading. -/
structure EdgesOk (as : List Atom) : Prop where
  lead : ∀ sp ∈ spaceChars, ¬ sp <+: leadText as
  start : ∀ c, (leadText as).head? = some c → c ∉ b!"*#;:="
  trail : ∀ sp ∈ spaceChars, ¬ sp <:+ trailText as

theorem EdgesOk.prefix {as : List Atom} (h : EdgesOk as) : ∀ sp ∈ spaceChars, ¬ sp <+: srcs as := by
  intro sp hs hp
  obtain ⟨r, e, hr⟩ := srcs_lead as
  rw [e] at hp
  rcases hr with rfl | ⟨c, r', rfl, hc⟩
  · exact h.lead sp hs (by simpa using hp)
  · refine h.lead sp hs (prefix_of_prefix_sep ?_ hp)
    rcases hc with rfl | rfl | rfl
    · exact (space_chars_not sp hs).1
    · exact (space_chars_not sp hs).2.1
    · exact (space_chars_not sp hs).2.2.2.2.1

theorem EdgesOk.suffix {as : List Atom} (h : EdgesOk as) : ∀ sp ∈ spaceChars, ¬ sp <:+ srcs as := by
  intro sp hs hp
  obtain ⟨r, e, hr⟩ := srcs_trail as
  rw [e] at hp
  rcases hr with rfl | ⟨c, r', rfl, hc⟩
  · exact h.trail sp hs (by simpa using hp)
  · refine h.trail sp hs (suffix_of_suffix_sep (c := c) (b := r') ?_ (by simpa using hp))
    rcases hc with rfl | rfl | rfl
    · exact (space_chars_not sp hs).1
    · exact (space_chars_not sp hs).2.2.1
    · exact (space_chars_not sp hs).2.2.2.2.2

theorem EdgesOk.trimmed {as : List Atom} (h : EdgesOk as) : trimSpace (srcs as) = srcs as := trimSpace_of_clean h.prefix h.suffix

theorem EdgesOk.head {as : List Atom} (h : EdgesOk as) : ∀ c, (srcs as).head? = some c → c ∉ b!"*#;:=" := by
  intro c hc
  obtain ⟨r, e, hr⟩ := srcs_lead as
  cases hl : leadText as with
  | cons d t =>
    refine h.start c ?_
    rw [e, hl] at hc
    rw [hl]
    simpa using hc
  | nil =>
    rw [e, hl, List.nil_append] at hc
    rcases hr with rfl | ⟨d, r', rfl, hd⟩
    · simp at hc
    · simp at hc
      subst hc
      rcases hd with rfl | rfl | rfl <;> decide

/-- Spaces in front of a line. -/
theorem trimSpace_spaces {s : Str} (h : ∀ sp ∈ spaceChars, ¬ sp <+: s) (hs : trimSpace s = s) (n : Nat) : trimSpace (spaces n ++ s) = s := by
  have hl : trimSpaceLeft (spaces n ++ s) = s := by
    rw [trimSpaceLeft]
    induction n with
    | zero => exact trimLeftBy_of_clean spaceChars_ne h
    | succ n ih =>
      rw [spaces, List.replicate_succ, List.cons_append, trimLeftBy, trimLeftGo]
      have : headLen spaceChars (0x20 :: (List.replicate n 0x20 ++ s)) = 1 := by
        simp [headLen, spaceChars, List.find?, List.isPrefixOf]
      rw [this, if_neg (by simp)]
      exact ih
  have hr := hs
  rw [trimSpace, trimSpaceLeft, trimLeftBy_of_clean spaceChars_ne h] at hr
  rw [trimSpace, hl, hr]

/-- A line without links, possibly with spaces in front, is not changed by the tokenizer. -/
theorem calm_atoms {env : ParserEnv} {as : List Atom} (h : ∀ a ∈ as, a.Ok env) (hb : NoBraces as) (hp : ∀ a ∈ as, a.isPlain = true) (he : EdgesOk as)
    (hn : (0x0A : Byte) ∉ srcs as) (n : Nat) : CalmLine (spaces n ++ srcs as) := by
  have hmm : ∀ a ∈ as, a.isMath = false := fun a ha => Atom.plain_not_math (hp a ha)
  have ht : trimSpace (spaces n ++ srcs as) = srcs as := trimSpace_spaces he.prefix he.trimmed n
  have hm : ∀ {c : Byte}, c ≠ 0x20 → c ∉ srcs as → c ∉ spaces n ++ srcs as := by
    intro c h1 h2
    simp [spaces, h1, h2]
  refine ⟨hm (by decide) hn, ?_, ?_, ?_, hm (by decide) (srcs_no_bracket h fun a ha => Or.inl (hp a ha)), ?_, ((tagSafe_of_no_lt (by simp [spaces])).append (srcs_tagSafe h hmm fun a ha => Atom.plain_not_ref (hp a ha))).free, ?_⟩
  · rw [ht]
    intro c hc hcc
    exact he.head c hc (by revert hcc; simp; tauto)
  · rw [ht]
    rintro ⟨h1, -⟩
    obtain ⟨t, e⟩ := h1
    exact he.head 0x3D (by rw [← e]; rfl) (by decide)
  · rw [ht]
    exact fun hi => srcs_no_brace h hb hmm (hi.subset (by simp))
  · exact fun hi => hm (by decide) (srcs_no_brace h hb hmm) (hi.subset (by simp))
  · refine no_pair_append (no_pair_of_not_mem (by simp [spaces])) (Or.inl (last_of_not_mem (by simp [spaces]))) (srcs_no_quotes h)

/-! ### Steps that replace elements -/

/-- Text is kept, elements are replaced by elements. -/
def SameShape (a a' : Atom) : Prop := (∃ t, a = .text t ∧ a' = .text t) ∨ (a.isText = false ∧ a'.isText = false)

theorem takeWhile_sameShape {as bs : List Atom} (h : List.Forall₂ SameShape as bs) : as.takeWhile Atom.isText = bs.takeWhile Atom.isText := by
  induction h with
  | nil => rfl
  | cons h _ ih =>
    rcases h with ⟨t, rfl, rfl⟩ | ⟨h1, h2⟩
    · simp [List.takeWhile_cons, Atom.isText, ih]
    · simp [h1, h2]

theorem EdgesOk.step {as bs : List Atom} (h : EdgesOk as) (hs : List.Forall₂ SameShape as bs) : EdgesOk bs := by
  have h1 : leadText as = leadText bs := by rw [leadText, takeWhile_sameShape hs, leadText]
  have h2 : trailText as = trailText bs := by
    rw [trailText, takeWhile_sameShape (List.forall₂_reverse_iff.mpr hs), trailText]
  exact ⟨h1 ▸ h.lead, h1 ▸ h.start, h2 ▸ h.trail⟩

theorem NoBraces.step {as bs : List Atom} (h : NoBraces as) (hs : List.Forall₂ SameShape as bs) : NoBraces bs := by
  induction hs with
  | nil => exact h
  | cons e _ ih =>
    intro t ht
    rcases List.mem_cons.mp ht with rfl | ht
    · rcases e with ⟨t', rfl, e2⟩ | ⟨-, e2⟩
      · cases e2
        exact h _ (by simp)
      · simp [Atom.isText] at e2
    · exact ih (fun t ht => h t (by simp [ht])) t ht

end Verif.Model
