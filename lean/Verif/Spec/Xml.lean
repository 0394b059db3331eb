import Verif.Spec.Html

/-!
# Tags of XML documents (C85)

A reader of the tags: each tag reaches from `<` to the next `>`, elements are closed in the opposite order in which they were opened, and
only a tag with a slash at its end needs no closing tag. Each XML document is accepted if it has no comments, character data sections and
attributes with `>`.
-/

namespace Verif.Spec
open Verif.Go Verif.Model

/-- The name at the beginning of a tag. -/
def xmlName (tag : Str) : Str := tag.takeWhile fun c => c ≠ 0x20 ∧ c ≠ 0x0A ∧ c ≠ 0x09

/-- What a tag does to the names of the open elements: declarations nothing; a closing tag closes the last one. -/
def xmlTag (tag : Str) (stack : List Str) : Option (List Str) :=
  if tag.head? = some 0x3F ∨ tag.head? = some 0x21 then some stack
  else if tag.head? = some 0x2F then
    match stack with
    | name :: rest => if xmlName (tag.drop 1) = name then some rest else none
    | [] => none
  else if tag.getLast? = some 0x2F then some stack
  else some (xmlName tag :: stack)

/-- The state of the reader: the beginning of the current tag, and the names of the open elements. -/
abbrev XmlState := Option Str × List Str

/-- One character; `none` is an error. -/
def xmlStep (state : Option XmlState) (c : Byte) : Option XmlState :=
  match state with
  | none => none
  | some (none, stack) => if c = 0x3C then some (some [], stack) else some (none, stack)
  | some (some tag, stack) =>
    if c = 0x3E then (xmlTag tag stack).map fun stack => (none, stack)
    else if c = 0x3C then none
    else some (some (tag ++ [c]), stack)

/-- The reader. -/
def xmlRead (state : XmlState) (text : Str) : Option XmlState := text.foldl xmlStep (some state)

/-- All elements are closed, in the right order. -/
def XmlBalanced (text : Str) : Prop := xmlRead (none, []) text = some (none, [])

/-- A part of a document that is written in the same way in HTML and in XML: its name is no name of an element without closing tag, and
there are no angle brackets and slashes where they would end the tag. -/
def XmlPart : HtmlPart → Prop
  | .text _ => True
  | .tag name attributes => name ∉ voidNames ∧ name ≠ [] ∧ (∀ c ∈ name, ¬ White c ∧ c ∉ b!"<>/?!") ∧
      ∀ a ∈ attributes, (∀ c ∈ a, c ∉ b!"<>") ∧ a.getLast? ≠ some 0x2F
  | .close name => ∀ c ∈ name, ¬ White c ∧ c ∉ b!"<>/?!"

end Verif.Spec
