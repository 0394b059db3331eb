import Verif.Spec.Output
import Verif.Model.Standalone

/-! Specification of the files of the settings (C82) and of the book of a single file (C83). -/

namespace Verif.Spec
open Verif.Go Verif.Model
open scoped List

/-- The files and folders that the settings name, besides the cache. -/
def settingFiles (c : Config) : List Str := [c.str .styleFile, c.str .coverImage, c.str .pandocDataDir] ++ c.list .fontFiles

/-- The path is one of a folder of the cache or of a folder above it. -/
def InTheWayToTheCache (c : Config) (es : List Str) : Prop := ∃ f ∈ cacheFolderNames, es <+: elements (c.str .cacheDir) ++ [f]

/-- There is something at the path. -/
def Present (d : Disk) (p : Str) : Prop := d (elements p) = some .folder ∨ d (elements p) = some .file ∧ NamesFile p

/-- The file `name.extension` in a folder; the folder ends with a slash or is empty. -/
structure FileNamed (file name extension : Str) : Prop where
  is : ∃ folder, file = folder ++ name ++ b!"." ++ extension ∧ (folder = [] ∨ b!"/" <:+ folder)
  slash : sepB ∉ name ∧ sepB ∉ extension
  dot : (0x2E : Byte) ∉ extension

end Verif.Spec
