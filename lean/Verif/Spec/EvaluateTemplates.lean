import Verif.Go.Strings

/-!
# Texts with templates that are evaluated
-/

namespace Verif.Spec
open Verif.Go
open scoped List

/-- A text with templates that may contain templates. -/
inductive NestedText where
  | nil
  | char (c : Byte) (rest : NestedText)
  | template (inner rest : NestedText)

/-- A text with placeholders. -/
inductive HoledPiece where
  | char (c : Byte)
  | hole (key : Str)

/-- The text of a placeholder. -/
def holeText (key : Str) : Str := b!"$$TEMPLATE_PLACEHOLDER_" ++ key ++ b!"$$"

def HoledPiece.text : HoledPiece → Str
  | char c => [c]
  | hole key => holeText key

def holedText (ps : List HoledPiece) : Str := ps.flatMap HoledPiece.text

namespace NestedText

/-- The text as it is written. -/
def text : NestedText → Str
  | nil => []
  | char c rest => c :: rest.text
  | template inner rest => b!"{{" ++ inner.text ++ b!"}}" ++ rest.text

/-- The text, followed by `after`, is read in the intended way: braces outside of templates are no beginning and no end
of a template. -/
def WellFormed : NestedText → (after : Str) → Prop
  | nil, _ => True
  | char c rest, after =>
    ¬ b!"{{" <+: c :: (rest.text ++ after) ∧ ¬ b!"}}" <+: c :: (rest.text ++ after) ∧ rest.WellFormed after
  | template inner rest, after => inner.WellFormed (b!"}}" ++ rest.text ++ after) ∧ rest.WellFormed after

/-- The text with a placeholder for each outermost template. The key of the placeholder is the hash of the template with
placeholders for the templates in it. -/
def holed (hash : Str → Str) : NestedText → List HoledPiece
  | nil => []
  | char c rest => .char c :: rest.holed hash
  | template inner rest => .hole (hash (b!"{{" ++ holedText (inner.holed hash) ++ b!"}}")) :: rest.holed hash

/-- What is sent to the wiki for a template. -/
def request (hash : Str → Str) (inner : NestedText) : Str := b!"{{" ++ holedText (inner.holed hash) ++ b!"}}"

/-- The contents of all templates of the text, inner ones before outer ones, otherwise in the order of the text. -/
def templates : NestedText → List NestedText
  | nil => []
  | char _ rest => rest.templates
  | template inner rest => inner.templates ++ [inner] ++ rest.templates

end NestedText

/-- The text without placeholders: each placeholder is replaced by the answer with its key, in which placeholders are
replaced in the same way. -/
inductive Resolved (answers : List (Str × Str)) : List HoledPiece → Str → Prop where
  | nil : Resolved answers [] []
  | char {ps : List HoledPiece} {x : Str} (c : Byte) (h : Resolved answers ps x) : Resolved answers (.char c :: ps) (c :: x)
  | hole {ps inner : List HoledPiece} {x y : Str} (key : Str) (ha : (key, holedText inner) ∈ answers)
      (hi : Resolved answers inner y) (h : Resolved answers ps x) : Resolved answers (.hole key :: ps) (y ++ x)

/-- No two different templates (first components) have the same key. -/
def NoCollision (calls : List (Str × Str)) : Prop := ∀ e ∈ calls, ∀ e' ∈ calls, e.2 = e'.2 → e.1 = e'.1

/-- The characters outside of placeholders spell the beginning of a placeholder. -/
def SpellsPlaceholder (ps : List HoledPiece) : Prop := b!"TEMPLATE_PLACEHOLDER_".map HoledPiece.char <:+: ps

/-- As `Resolved`, but everything in an answer that looks like a placeholder is one. -/
inductive Filled (answers : List (Str × Str)) : List HoledPiece → Str → Prop where
  | nil : Filled answers [] []
  | char {ps : List HoledPiece} {x : Str} (c : Byte) (h : Filled answers ps x) : Filled answers (.char c :: ps) (c :: x)
  | hole {ps inner : List HoledPiece} {x y : Str} (key : Str) (ha : (key, holedText inner) ∈ answers) (hs : ¬ SpellsPlaceholder inner)
      (hi : Filled answers inner y) (h : Filled answers ps x) : Filled answers (.hole key :: ps) (y ++ x)

end Verif.Spec
