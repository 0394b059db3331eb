import Verif.Go.Digest
import Verif.Model.ArticleText
import Verif.Model.ConfigFiles
import Verif.Props.Wikipedia
open Verif Verif.Go Verif.Model

def toStr (s : String) : Str := s.toUTF8.toList
def ofStr (s : Str) : ByteArray := ⟨s.toArray⟩
def lowerS (s : Str) : Str :=
  match String.fromUTF8? (ofStr s) with
  | some t => toStr (t.map fun c => if c.val ≥ 0xC0 ∧ c.val ≤ 0xDE ∧ c.val ≠ 0xD7 then Char.ofNat (c.toNat + 32) else c.toLower)
  | none => s
def upperF (s : Str) : Str :=
  match String.fromUTF8? (ofStr s) with
  | some t => match t.toList with
    | c :: r => toStr (String.ofList ((if c.val ≥ 0xE0 ∧ c.val ≤ 0xFE ∧ c.val ≠ 0xF7 then Char.ofNat (c.toNat - 32) else c.toUpper) :: r))
    | [] => s
  | none => s

/-- Stands for the picture of each formula. -/
def math (_ : Str) : Res (Str × Str × Str × Str) := .ok (b!"images/0000000000000000000000000000000000000000.png", b!"1ex", b!"1ex", b!"vertical-align: 0;")

/-- Runs the model on an integration test and writes the HTML. Arguments: the folder of the integration tests, the name of the test,
the file with the answers for templates (`template\x02answer`, separated by `\x01`) and the HTML file. -/
def main (args : List String) : IO Unit := do
  let cfg ← IO.FS.readBinFile (args[0]! ++ "/config.json")
  let title := "test-" ++ args[1]!
  let src ← IO.FS.readBinFile (args[0]! ++ "/" ++ title ++ ".mediawiki")
  let tmpl ← IO.FS.readBinFile args[2]!
  let lines := (String.fromUTF8! tmpl).splitOn "\x01"
  let pairs := lines.filterMap fun l => match l.splitOn "\x02" with | [a, b] => some (toStr a, toStr b) | _ => none
  match unmarshalConfig cfg.toList (defaultConfig ⟨b!"/c", false, false⟩) with
  | none => IO.println "config error"
  | some c =>
    let env : ParserEnv := ⟨lowerS, upperF, c⟩
    let templates : TemplateEnv := ⟨sha1hex, fun t _ => match pairs.find? (·.1 == t) with
      | some p => .ok p.2
      | none => .ok (b!"<<<" ++ (toStr (toString t.length)) ++ b!">>>")⟩
    let html : HtmlEnv := ⟨{ Verif.Props.demoConf [] with mathConverter := .template, commandSvgToPng := [], commandPdfToPng := [], commandWebpToPng := [] }, math⟩
    match articleHtml env templates (fun _ l => l) html 100000000 b!"../../style.css" (toStr title) src.toList with
    | none => IO.println "fuel"
    | some (.ok p) => IO.FS.writeBinFile args[3]! (ofStr p)
    | some .err => IO.println "err"
    | some .panic => IO.println "panic"
    | some .fatal => IO.println "fatal"
