import Verif.Model.Output
import Verif.Spec.Config

/-! Specification of the place of the output file (C65). -/

namespace Verif.Spec
open Verif.Go Verif.Model
open scoped List

/-- The elements of an absolute path. -/
def elements (p : Str) : List Str := walk [] (split p b!"/")

/-- The last element of the path is a name. -/
def NamesFile (p : Str) : Prop := ∀ e, (split p b!"/").getLast? = some e → e ∉ [[], b!".", b!".."]

/-- The root is a folder, and every file and folder is within a folder. -/
structure DiskOk (d : Disk) : Prop where
  root : d [] = some .folder
  parents : ∀ q e, d (q ++ [e]) ≠ none → d q = some .folder

/-- No folder above the path is a file. -/
def NoFileAbove (d : Disk) (es : List Str) : Prop := ∀ q, q <+: es → q ≠ es → d q ≠ some .file

/-- The name of the output file within a folder. -/
def defaultName (outputType name : Str) : Prop :=
  (outputType, name) ∈ [(b!"epub2", b!"ebook.epub"), (b!"epub3", b!"ebook.epub"), (b!"stats-json", b!"stats.json"),
    (b!"stats-txt", b!"stats.txt")]

/-- Files with this name are accepted for this type of output. -/
def Accepted (outputType p : Str) : Prop :=
  (outputType = b!"stats-json" → b!"json" <:+ p) ∧ (outputType = b!"stats-txt" → b!"txt" <:+ p)

/-- The file at the path `out` is the one the user wants with the path `wanted`: this file, or, if there is a folder, the file
with the default name in it; its folder exists, everything that existed is as before, and nothing was created but the file and the folders above it. -/
structure IsOutput (d d' : Disk) (outputType wanted out : Str) : Prop where
  absolute : isAbs out = true
  file : d (elements wanted) ≠ some .folder → elements out = elements wanted ∧ d' (elements wanted) = some .file
  inFolder : d (elements wanted) = some .folder → ∀ name, defaultName outputType name → elements out = elements wanted ++ [name]
  folder : d' (elements out).dropLast = some .folder
  kept : ∀ q, d q ≠ none → d' q = d q
  nothingElse : ∀ q, d' q ≠ d q → q <+: elements wanted

end Verif.Spec
