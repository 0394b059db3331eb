import Verif.Go.Bytes

/-!
# Nested tokens

A text is read from left to right as a sequence of opening tokens, closing tokens and other characters. `same` is
the comparison with a token (with or without respecting the case of letters).
-/

namespace Verif.Spec

/-- One element of a text. -/
inductive Piece where
  | opening (text : Str)
  | closing (text : Str)
  | other (c : Byte)

/-- The text of the element. -/
def Piece.text : Piece → Str
  | .opening s => s
  | .closing s => s
  | .other c => [c]

/-- The text of several elements. -/
def textOf (l : List Piece) : Str := l.flatMap Piece.text

/-- `Reads isOpen isClose text pieces`: reading the text from left to right gives these elements. An opening token has
precedence over a closing token, which has precedence over a single character. -/
inductive Reads (isOpen isClose : Str → Prop) : Str → List Piece → Prop
  | nil : Reads isOpen isClose [] []
  | opening (o r : Str) (l : List Piece) (ho : isOpen o) (hr : Reads isOpen isClose r l) :
      Reads isOpen isClose (o ++ r) (.opening o :: l)
  | closing (c r : Str) (l : List Piece) (hno : ∀ o, isOpen o → ¬ o <+: c ++ r) (hc : isClose c)
      (hr : Reads isOpen isClose r l) : Reads isOpen isClose (c ++ r) (.closing c :: l)
  | other (x : Byte) (r : Str) (l : List Piece) (hno : ∀ o, isOpen o → ¬ o <+: x :: r)
      (hnc : ∀ c, isClose c → ¬ c <+: x :: r) (hr : Reads isOpen isClose r l) :
      Reads isOpen isClose (x :: r) (.other x :: l)

/-- Every opening token has its closing token. -/
inductive Balanced : List Piece → Prop
  | nil : Balanced []
  | other (x : Byte) (l : List Piece) : Balanced l → Balanced (.other x :: l)
  | nested (o c : Str) (inner l : List Piece) : Balanced inner → Balanced l →
      Balanced (.opening o :: inner ++ .closing c :: l)

end Verif.Spec
