import Verif.Model.Config
import Verif.Go.Decimal
import Verif.Go.Strings

/-!
# Generating the e-book, src/generator/epub.go
-/

namespace Verif.Model
open Verif.Go

/-- `Metadata`, src/config/project.go:20-26. -/
structure Metadata where
  title : Str
  language : Str
  author : Str
  license : Str
  date : Str

/-- The arguments for pandoc, src/generator/epub.go:39-68. -/
def pandocArgs (c : Config) (sourceFiles : List Str) (outputFile : Str) (m : Metadata) : List Str :=
  [b!"-f", b!"html",
   b!"-t", c.str .outputType,
   b!"-o", outputFile,
   b!"--metadata", b!"title=" ++ m.title,
   b!"--metadata", b!"author=" ++ m.author,
   b!"--metadata", b!"rights=" ++ m.license,
   b!"--metadata", b!"language=" ++ m.language,
   b!"--metadata", b!"date=" ++ m.date] ++
  (if c.int .tocDepth > 0 then [b!"--toc", b!"--toc-depth", decimalInt (c.int .tocDepth)] else []) ++
  (if c.str .pandocDataDir ≠ [] then [b!"--data-dir", c.str .pandocDataDir] else []) ++
  (if c.str .styleFile ≠ [] then [b!"--css", c.str .styleFile] else []) ++
  (if c.str .coverImage ≠ [] then [b!"--epub-cover-image=" ++ c.str .coverImage] else []) ++
  (c.list .fontFiles).map (fun file => b!"--epub-embed-font=" ++ file) ++
  sourceFiles

/-- A call of the library go-epub. -/
inductive EpubCall where
  | setAuthor (s : Str)
  | setLang (s : Str)
  | setTitle (s : Str)
  | addImage (path : Str)
  | setCover
  | addSection (content title : Str)
  | embedImages
  | addCss (path : Str)
  | addFont (path : Str)
  | write (path : Str)
  deriving DecidableEq

/-- What the generation depends on: the contents of files (`none`: cannot be read), and whether a call of the library
succeeds after the calls before it. -/
structure EpubEnv where
  readFile : Str → Option Str
  succeeds : (before : List EpubCall) → EpubCall → Bool

/-- `headingTitleRegex.FindStringSubmatch(content)[1]`, src/generator/epub.go:97 and 108: `(?s)<h1>(.*)</h1>`, the text from the
first `<h1>` to the last `</h1>`. The index expression panics if there is no match. -/
def sectionTitle (content : Str) : Res Str :=
  match cut b!"<h1>" content with
  | none => .panic
  | some (_, rest) =>
    match cut (b!"</h1>" : Str).reverse rest.reverse with
    | none => .panic
    | some (_, title) => .ok title.reverse

/-- Calls the library; `calls` are the calls so far. -/
def epubCall (env : EpubEnv) (calls : List EpubCall) (call : EpubCall) : Res (List EpubCall) :=
  if env.succeeds calls call then .ok (calls ++ [call]) else .err

/-- The loop over the articles, src/generator/epub.go:99-117. -/
def addSections (env : EpubEnv) : (sourceFiles : List Str) → (calls : List EpubCall) → Res (List EpubCall)
  | [], calls => .ok calls
  | file :: rest, calls =>
    match env.readFile file with
    | none => .err
    | some content => do
      let title ← sectionTitle content
      let calls ← epubCall env calls (.addSection content title)
      addSections env rest (calls ++ [.embedImages])

/-- The loop over the fonts, src/generator/epub.go:135-141. -/
def addFonts (env : EpubEnv) : (fontFiles : List Str) → (calls : List EpubCall) → Res (List EpubCall)
  | [], calls => .ok calls
  | file :: rest, calls => do
    let calls ← epubCall env calls (.addFont file)
    addFonts env rest calls

/-- `GenerateEpubWithGoLibrary`, src/generator/epub.go:78-149. Result: the calls of the library. `NewEpub` is taken to
succeed. -/
def epubWithLibrary (env : EpubEnv) (c : Config) (sourceFiles : List Str) (outputFile : Str) (m : Metadata) :
    Res (List EpubCall) := do
  let calls := [.setAuthor m.author, .setLang m.language, .setTitle m.title]
  let calls ← epubCall env calls (.addImage (c.str .coverImage))
  let calls ← epubCall env calls .setCover
  let calls ← addSections env sourceFiles calls
  let calls ← epubCall env calls (.addCss (c.str .styleFile))
  let calls ← addFonts env (c.list .fontFiles) calls
  epubCall env calls (.write outputFile)

/-- What `GenerateEpub` does. -/
inductive EpubAction where
  /-- `util.Execute` with executable, working directory and arguments -/
  | pandoc (executable workDir : Str) (args : List Str)
  | library (calls : List EpubCall)
  deriving DecidableEq

/-- `GenerateEpub` and `GenerateEpubWithPandoc`, src/generator/epub.go:16-76, up to the result of pandoc. -/
def generateEpub (env : EpubEnv) (c : Config) (sourceFiles : List Str) (outputFile : Str) (m : Metadata) :
    Res EpubAction :=
  if c.str .outputType ≠ b!"epub2" ∧ c.str .outputType ≠ b!"epub3" then .err
  else if c.str .outputDriver = b!"pandoc" then
    .ok (.pandoc (c.str .pandocExecutable) (c.str .cacheDir) (pandocArgs c sourceFiles outputFile m))
  else if c.str .outputDriver = b!"internal" then do
    let calls ← epubWithLibrary env c sourceFiles outputFile m
    .ok (.library calls)
  else .err

end Verif.Model
