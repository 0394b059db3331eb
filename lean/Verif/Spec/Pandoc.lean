import Verif.Model.Epub

/-!
# The command line of pandoc

How pandoc reads its arguments, restricted to the options that matter here.
-/

namespace Verif.Spec
open Verif.Model Verif.Go

/-- What pandoc is asked to do. -/
structure PandocCall where
  inputFormat : Option Str := none
  outputFormat : Option Str := none
  outputFile : Option Str := none
  metadata : List (Str × Str) := []
  tableOfContents : Bool := false
  tocDepth : Option Str := none
  dataDir : Option Str := none
  css : List Str := []
  cover : Option Str := none
  fonts : List Str := []
  inputs : List Str := []
  deriving DecidableEq

/-- `KEY=VALUE` -/
def keyValue (s : Str) : Str × Str := (s.takeWhile (· ≠ 0x3D), (s.dropWhile (· ≠ 0x3D)).drop 1)

/-- The value of an option `--name=value`. -/
def optionValue (name arg : Str) : Option Str :=
  if hasPrefix arg (name ++ b!"=") then some (arg.drop (name.length + 1)) else none

/-- An argument that belongs to no option with a value of its own: an option `--name=value` or an input file; options
begin with a hyphen. -/
def readWord (arg : Str) (i : PandocCall) : Option PandocCall :=
  match optionValue b!"--epub-cover-image" arg with
  | some v => some { i with cover := some v }
  | none =>
    match optionValue b!"--epub-embed-font" arg with
    | some v => some { i with fonts := i.fonts ++ [v] }
    | none => if hasPrefix arg b!"-" then none else some { i with inputs := i.inputs ++ [arg] }

/-- The options whose value is the next argument. -/
def readOption (name value : Str) (i : PandocCall) : Option PandocCall :=
  if name = b!"-f" then some { i with inputFormat := some value }
  else if name = b!"-t" then some { i with outputFormat := some value }
  else if name = b!"-o" then some { i with outputFile := some value }
  else if name = b!"--metadata" then some { i with metadata := i.metadata ++ [keyValue value] }
  else if name = b!"--toc-depth" then some { i with tocDepth := some value }
  else if name = b!"--data-dir" then some { i with dataDir := some value }
  else if name = b!"--css" then some { i with css := i.css ++ [value] }
  else none

/-- Reads the arguments from left to right. `none`: unknown option. -/
def readArgs : List Str → PandocCall → Option PandocCall
  | [], i => some i
  | [arg], i => if arg = b!"--toc" then some { i with tableOfContents := true } else readWord arg i
  | arg :: next :: rest, i =>
    if arg = b!"--toc" then readArgs (next :: rest) { i with tableOfContents := true }
    else
      match readOption arg next i with
      | some j => readArgs rest j
      | none =>
        match readWord arg i with
        | some j => readArgs (next :: rest) j
        | none => none

/-- What pandoc is to be asked: the articles in their order; the options that are set, and no other ones. -/
def wanted (c : Config) (files : List Str) (output : Str) (m : Metadata) : PandocCall where
  inputFormat := some b!"html"
  outputFormat := some (c.str .outputType)
  outputFile := some output
  metadata := [(b!"title", m.title), (b!"author", m.author), (b!"rights", m.license), (b!"language", m.language),
    (b!"date", m.date)]
  tableOfContents := c.int .tocDepth > 0
  tocDepth := if c.int .tocDepth > 0 then some (decimalInt (c.int .tocDepth)) else none
  dataDir := if c.str .pandocDataDir = [] then none else some (c.str .pandocDataDir)
  css := if c.str .styleFile = [] then [] else [c.str .styleFile]
  cover := if c.str .coverImage = [] then none else some (c.str .coverImage)
  fonts := c.list .fontFiles
  inputs := files

end Verif.Spec
