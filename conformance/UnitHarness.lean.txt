import Verif.Go.Digest
import Verif.Model.ArticleText
import Verif.Model.ConfigFiles
import Verif.Props.Wikipedia
set_option linter.all false
set_option linter.unusedVariables false
open Verif Verif.Go Verif.Model

def s (t : String) : Str := t.toUTF8.toList
def ofStr (t : Str) : ByteArray := ⟨t.toArray⟩
def lowerS (t : Str) : Str :=
  match String.fromUTF8? (ofStr t) with
  | some u => s (u.map fun c => if c.val ≥ 0xC0 ∧ c.val ≤ 0xDE ∧ c.val ≠ 0xD7 then Char.ofNat (c.toNat + 32) else c.toLower)
  | none => t
def upperF (t : Str) : Str :=
  match String.fromUTF8? (ofStr t) with
  | some u => match u.toList with
    | c :: r => s (String.ofList ((if c.val ≥ 0xE0 ∧ c.val ≤ 0xFE ∧ c.val ≠ 0xF7 then Char.ofNat (c.toNat - 32) else c.toUpper) :: r))
    | [] => t
  | none => t

inductive Opt where
  | l (o : ListOpt) (v : List Str)
  | s (o : StrOpt) (v : Str)

def mkEnv (opts : List Opt) : ParserEnv :=
  ⟨lowerS, upperF, opts.foldl (fun c o => match o with
    | .l o v => { c with list := fun x => if x = o then v else c.list x }
    | .s o v => { c with str := fun x => if x = o then v else c.str x }) (defaultConfig ⟨b!"/c", false, false⟩)⟩
def mkHtml (c : Config) : HtmlEnv :=
  ⟨{ Verif.Props.demoConf [] with commandSvgToPng := c.str .commandTemplateSvgToPng, commandPdfToPng := c.str .commandTemplatePdfToPng, commandWebpToPng := c.str .commandTemplateWebpToPng }, fun _ => .err⟩

def fuel : Nat := 100000000
def closeIndex (o : Option Nat) : Int := match o with | some n => n | none => -1
def withByte {α : Type} (t : Str) (f : Byte → TokM α) : TokM α := match t with | [c] => f c | _ => TokM.panic

def liftO (r : Option (Res Str)) : TokM (Str × Bool) := fun st => match r with
  | none => none
  | some (.ok a) => some (.ok ((a, false), st))
  | some .err => some (.ok (([], true), st))
  | some .panic => some .panic
  | some .fatal => some .fatal
def onlyText {α : Type} (r : Option (Res (Str × α))) : Option (Res Str) := r.map fun | .ok p => .ok p.1 | .err => .err | .panic => .panic | .fatal => .fatal
def liftE (r : ExpM Str) : TokM (Str × Bool) := liftO r

class Dump (α : Type) where dump : α → String
export Dump (dump)
def text (t : Str) : String := match String.fromUTF8? (ofStr t) with | some u => toString (repr u) | none => toString (repr t)
instance : Dump Str := ⟨text⟩
instance : Dump Nat := ⟨toString⟩
instance : Dump Int := ⟨toString⟩
instance : Dump Bool := ⟨toString⟩
instance (priority := low) {α : Type} [Dump α] : Dump (List α) := ⟨fun l => "[" ++ ", ".intercalate (l.map dump) ++ "]"⟩
instance : Dump TableCol := ⟨fun c => s!"col({dump c.attributes} {dump c.content} {c.isHeading})"⟩
mutual
partial def dumpList : ListTok → String
  | .mk k items => s!"list({repr k} {items.map dumpItem})"
partial def dumpItem : ItemTok → String
  | .mk t c subs => s!"item({repr t} {text c} {subs.map dumpList})"
end
instance : Dump ListTok := ⟨dumpList⟩
instance : Dump ItemTok := ⟨dumpItem⟩
instance : Dump Token := ⟨fun
  | .heading c d => s!"heading {text c} {d}"
  | .internalLink a b => s!"internalLink {text a} {text b}"
  | .externalLink a b => s!"externalLink {text a} {text b}"
  | .string a => s!"string {text a}"
  | .table r c => s!"table {dump r} {text c}"
  | .list l => dumpList l
  | .image f c x y => s!"image {text f} {text c} {x} {y}"
  | .inlineImage f x y => s!"inlineImage {text f} {x} {y}"
  | .refDefinition i c => s!"refDefinition {i} {text c}"
  | .refUsage i => s!"refUsage {i}"
  | .math c => s!"math {text c}"
  | .nowiki c => s!"nowiki {text c}"⟩

abbrev T := StateT TokState (ExceptT String IO)
def fresh : T Unit := set TokState.initial
def images : T (List Str) := do return (← get).images
def counter : T Nat := do return (← get).counter
def call {α : Type} (m : TokM α) : T α := do
  match m (← get) with
  | none => throw "did not end"
  | some (.ok (a, st)) => set st; return a
  | some .err => throw "error"
  | some .panic => throw "panic"
  | some .fatal => throw "fatal"
def expect (actual expected : String) : T Unit := do
  if actual ≠ expected then throw s!"\n  expected {expected}\n  model    {actual}"
def expectMap (l : List (Str × Token)) : T Unit := do
  let m := (← get).tokenMap
  let keys := m.map Prod.fst |>.eraseDups
  let show' (l : List (Str × Token)) : List String := (l.map fun e => text e.1 ++ " ↦ " ++ dump e.2).mergeSort
  let actual := keys.filterMap fun k => (lookupToken m k).map fun t => (k, t)
  expect (toString (show' actual)) (toString (show' l))
def runTest (name : String) (t : T Unit) : IO Unit := do
  match ← (t.run TokState.initial).run with
  | .ok _ => IO.println s!"ok   {name}"
  | .error e => IO.println s!"FAIL {name}: {e}"
