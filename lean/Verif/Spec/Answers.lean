import Verif.Spec.Json
import Verif.Go.JsonRead

/-!
# JSON texts and the answers of the wiki

RFC 8259 as a relation between values and texts, and the form of the answers of the MediaWiki API.
-/

namespace Verif.Spec
open Verif.Go

/-- Section 2: white space. -/
def Blank (s : Str) : Prop := ∀ c ∈ s, c ∈ b!" \t\n\r"

/-- Section 7: `\u` and four hexadecimal digits are one unit of UTF-16. -/
def CodeUnit (n : Nat) (s : Str) : Prop :=
  ∃ a b c d x y z w, s = [0x5C, 0x75, a, b, c, d] ∧ hexValue a = some x ∧ hexValue b = some y ∧ hexValue c = some z ∧
    hexValue d = some w ∧ n = 4096 * x + 256 * y + 16 * z + w

/-- Section 7: the ways to write one character of a string, given by its code point. -/
inductive CharText : Nat → Str → Prop
  | plain (n : Nat) (h : Scalar n) (hc : 0x20 ≤ n) (hq : n ≠ 0x22) (hb : n ≠ 0x5C) : CharText n (utf8 n)
  | short (e c : Byte) (h : shortEscape e = some c) : CharText c.toNat [0x5C, e]
  | escaped (n : Nat) (s : Str) (h : Scalar n) (hs : CodeUnit n s) : CharText n s
  | pair (n high low : Nat) (s t : Str) (hn : 0x10000 ≤ n ∧ n < 0x110000) (hh : high = 0xD800 + (n - 0x10000) / 0x400)
      (hl : low = 0xDC00 + (n - 0x10000) % 0x400) (hs : CodeUnit high s) (ht : CodeUnit low t) : CharText n (s ++ t)

/-- The characters of a string, one after the other. -/
inductive CharsText : List Nat → Str → Prop
  | nil : CharsText [] []
  | cons (n : Nat) (ns : List Nat) (s t : Str) (hs : CharText n s) (ht : CharsText ns t) : CharsText (n :: ns) (s ++ t)

/-- Section 7: a string. Its value is given in UTF-8. -/
def StringText (value s : Str) : Prop :=
  ∃ codes chars, CharsText codes chars ∧ value = codes.flatMap utf8 ∧ s = b!"\"" ++ chars ++ b!"\""

/-- One or more digits. -/
def SomeDigits (s : Str) : Prop := s ≠ [] ∧ ∀ c ∈ s, c ∈ b!"0123456789"

/-- Section 6: a number. -/
def NumberText (s : Str) : Prop :=
  ∃ sign whole fraction exponent, s = sign ++ whole ++ fraction ++ exponent ∧ sign ∈ [[], b!"-"] ∧
    (whole = b!"0" ∨ (SomeDigits whole ∧ whole.head? ≠ some 0x30)) ∧
    (fraction = [] ∨ ∃ d, SomeDigits d ∧ fraction = b!"." ++ d) ∧
    (exponent = [] ∨ ∃ e sign' d, e ∈ [b!"e", b!"E"] ∧ sign' ∈ [[], b!"+", b!"-"] ∧ SomeDigits d ∧ exponent = e ++ sign' ++ d)

mutual
/-- Section 3: the text is a way to write the value. -/
def ValueText : JsonVal → Str → Prop
  | .null, s => s = b!"null"
  | .bool b, s => s = if b then b!"true" else b!"false"
  | .num text, s => s = text ∧ NumberText text
  | .str value, s => StringText value s
  | .arr items, s => ∃ inner, s = b!"[" ++ inner ++ b!"]" ∧ ItemsText items inner
  | .obj fields, s => ∃ inner, s = b!"{" ++ inner ++ b!"}" ∧ MembersText fields inner
/-- Section 5: the inside of an array. -/
def ItemsText : JsonItems → Str → Prop
  | .nil, s => Blank s
  | .cons value .nil, s => ∃ a t b, s = a ++ t ++ b ∧ Blank a ∧ ValueText value t ∧ Blank b
  | .cons value (.cons value' rest), s =>
    ∃ a t b u, s = a ++ t ++ b ++ b!"," ++ u ∧ Blank a ∧ ValueText value t ∧ Blank b ∧ ItemsText (.cons value' rest) u
/-- Section 4: the inside of an object. -/
def MembersText : JsonMembers → Str → Prop
  | .nil, s => Blank s
  | .cons key value .nil, s =>
    ∃ a k b c t d, s = a ++ k ++ b ++ b!":" ++ c ++ t ++ d ∧ Blank a ∧ StringText key k ∧ Blank b ∧ Blank c ∧
      ValueText value t ∧ Blank d
  | .cons key value (.cons key' value' rest), s =>
    ∃ a k b c t d u, s = a ++ k ++ b ++ b!":" ++ c ++ t ++ d ++ b!"," ++ u ∧ Blank a ∧ StringText key k ∧ Blank b ∧ Blank c ∧
      ValueText value t ∧ Blank d ∧ MembersText (.cons key' value' rest) u
end

/-- Section 2: a JSON text. -/
def JsonText (value : JsonVal) (s : Str) : Prop := ∃ a t b, s = a ++ t ++ b ∧ Blank a ∧ ValueText value t ∧ Blank b

mutual
/-- How deep arrays and objects are nested. -/
def nesting : JsonVal → Nat
  | .arr items => nestingItems items + 1
  | .obj fields => nestingMembers fields + 1
  | _ => 0
def nestingItems : JsonItems → Nat
  | .nil => 0
  | .cons value rest => max (nesting value) (nestingItems rest)
def nestingMembers : JsonMembers → Nat
  | .nil => 0
  | .cons _ value rest => max (nesting value) (nestingMembers rest)
end

/-- The members of an object. -/
def memberList : JsonMembers → List (Str × JsonVal)
  | .nil => []
  | .cons key value rest => (key, value) :: memberList rest

/-- Small letters. -/
def smallLetters (s : Str) : Str := s.map fun c => if 0x41 ≤ c ∧ c ≤ 0x5A then c + 0x20 else c

/-- A name of ASCII characters that is not this one, with small or large letters. -/
def OtherName (name other : Str) : Prop := (∀ c ∈ other, c < 0x80) ∧ smallLetters other ≠ smallLetters name

/-- The object has exactly one member of this name, with this value. -/
def OneMember (fields : JsonMembers) (name : Str) (value : JsonVal) : Prop :=
  ∃ before after, memberList fields = before ++ (name, value) :: after ∧ ∀ m ∈ before ++ after, OtherName name m.1

/-- The answer to `action=parse&prop=wikitext`: `{"parse": {"title": …, "wikitext": {"*": …}}}`, with further members. -/
def ArticleAnswer (title text : Str) (answer : JsonVal) : Prop :=
  ∃ top parse wikitext, answer = .obj top ∧ OneMember top b!"parse" (.obj parse) ∧ OneMember parse b!"title" (.str title) ∧
    OneMember parse b!"wikitext" (.obj wikitext) ∧ OneMember wikitext b!"*" (.str text) ∧
    ∀ m ∈ memberList parse, OtherName b!"OriginalTitle" m.1

/-- The answer to `action=expandtemplates&prop=wikitext`: `{"expandtemplates": {"wikitext": …}}`, with further members. -/
def TemplateAnswer (text : Str) (answer : JsonVal) : Prop :=
  ∃ top inner, answer = .obj top ∧ OneMember top b!"expandtemplates" (.obj inner) ∧ OneMember inner b!"wikitext" (.str text)

end Verif.Spec
