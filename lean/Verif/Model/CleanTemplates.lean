import Verif.Go.Space
import Verif.Model.CloseToken
import Verif.Model.Parser

/-!
# Ignored and trailing templates, src/parser/cleaner.go
-/

namespace Verif.Model
open Verif.Go

/-- The class `\s` of regular expressions. -/
def regexSpace (c : Byte) : Bool := c = 0x20 || c = 0x09 || c = 0x0A || c = 0x0C || c = 0x0D

/-- The characters excluded by the class `[^\n|}]`. -/
def nameStop (c : Byte) : Bool := c = 0x0A || c = 0x7C || c = 0x7D

/-- `\s*([^\n|}]+)` at the beginning of the text: white space, then as many characters as possible. If there is no
character behind the white space, the expression gives back white space until a character other than a line break is
available; the name then is this character. -/
def matchName (s : Str) : Option Str :=
  let name := (s.dropWhile regexSpace).takeWhile fun c => !nameStop c
  if name ≠ [] then some name
  else ((s.takeWhile regexSpace).reverse.find? fun c => !nameStop c).map fun c => [c]

/-- `templateNameRegex.FindStringSubmatch`, src/parser/pattern.go:33: the first match in the text. -/
def findTemplateName : Str → Option Str
  | [] => none
  | c :: t =>
    if hasPrefix (c :: t) b!"{{" then
      match matchName (t.drop 1) with
      | some name => some name
      | none => findTemplateName t
    else findTemplateName t

/-- `util.HasAnyPrefix`, src/util/string.go:24-31. -/
def hasAnyPrefix (element : Str) (prefixes : List Str) : Bool := prefixes.any fun p => hasPrefix element p

/-- Lines 143-149: the name of the template, if it has one. -/
def templateName (env : ParserEnv) (templateText : Str) : Option Str :=
  (findTemplateName templateText).map fun n => trimSpace (env.lower n)

/-- Line 151: the template is removed. -/
def removesTemplate (env : ParserEnv) (name : Str) : Bool :=
  hasAnyPrefix name ((env.config.list .ignoredTemplates).map env.lower) ||
    hasAnyPrefix name ((env.config.list .trailingTemplates).map env.lower)

/-- The loop of `handleUnwantedAndTrailingTemplates`, src/parser/cleaner.go:130-165, with an upper bound for the number
of iterations (`templateLoop_fuel` in Lemmas/Templates.lean: the bound is never reached). Result: the content and the
names of the templates to be added at the end. -/
def templateLoop (env : ParserEnv) : (fuel : Nat) → (content : Str) → (i : Nat) → (found : List Str) → Str × List Str
  | 0, content, _, found => (content, found)
  | fuel + 1, content, i, found =>
    if i + 1 < content.length then
      if hasPrefix (content.drop i) b!"{{" then
        match findClose content (i + 2) b!"{{" b!"}}" with
        | none => templateLoop env fuel content (i + 1) found
        | some closed =>
          let templateText := (content.take (closed + 2)).drop i
          match templateName env templateText with
          | none => templateLoop env fuel content (i + 1) found
          | some name =>
            if removesTemplate env name then
              templateLoop env fuel (replaceFirst templateText [] content) i
                (if name ∈ (env.config.list .trailingTemplates).map env.lower then found ++ [name] else found)
            else templateLoop env fuel content (i + 1) found
      else templateLoop env fuel content (i + 1) found
    else (content, found)

/-- `handleUnwantedAndTrailingTemplates`, src/parser/cleaner.go:124-173. -/
def handleUnwantedAndTrailingTemplates (env : ParserEnv) (content : Str) : Str :=
  let (content, found) := templateLoop env content.length content 0 []
  content ++ found.flatMap fun name => b!"\n{{" ++ name ++ b!"}}"

end Verif.Model
