import Verif.Model.Workers
import Verif.Model.Concurrent
import Verif.Model.ArticleText
import Verif.Model.Epub

/-!
# Generating a book: src/main.go, lines 334-471

The worker threads of `Verif.Model.Workers` together with the files that they write. The calls of the cache are atomic
steps here; theorem `C21_linearizable` is the justification.
-/

namespace Verif.Model
open Verif.Go

/-- What the generation of a book depends on. -/
structure BookEnv where
  config : Config
  cache : CacheEnv
  parser : ParserEnv
  templates : TemplateEnv
  iterate : Nat → List (Str × Str) → List (Str × Str)
  html : HtmlEnv
  /-- `DownloadArticle`: the wikitext of an article -/
  download : Str → Res Str
  /-- `os.Stat(html/<article>.html)` succeeds -/
  present : Str → Bool

/-- `HtmlCacheDirName`, src/cache/cache.go:21. -/
def htmlDirName : Str := b!"html"

/-- The name of the HTML file of an article, src/generator/html.go:412. -/
def htmlFileName (article : Str) : Str := article ++ b!".html"

/-- The path of the style file in the HTML files, src/generator/html.go:102. -/
def BookEnv.style (env : BookEnv) : Str := toRelativePathWithBasedir (env.config.str .cacheDir) (env.config.str .styleFile)

/-- Download, `Tokenize` and `Generate` of an article up to the text of the file, src/main.go:434-461; `none`: not finished with
the given number of steps. The download of the images (line 443) is part of the step `fail` below. -/
def articlePage (env : BookEnv) (fuel : Nat) (article : Str) : Option (Res Str) :=
  match env.download article with
  | .ok text => articleHtml env.parser env.templates env.iterate env.html fuel env.style article text
  | .err => some .err
  | .panic => some .panic
  | .fatal => some .fatal

/-- The page is the result however many steps there are beyond those that are needed. -/
def PageOf (env : BookEnv) (article page : Str) : Prop := ∃ steps, ∀ fuel, steps ≤ fuel → articlePage env fuel article = some (.ok page)

/-- The threads and the files. -/
structure Book where
  pool : Pool
  fs : FS

def Book.start (articles : List Str) (threads : Nat) (fs : FS) : Book := ⟨Pool.start articles threads, fs⟩

/-- `articleOutputFiles[articleNumber] = file`, src/main.go:378: the worker `i` is ready with the article. -/
def Pool.store (articles : List Str) (s : Pool) (i : Nat) (a file : Str) : Pool :=
  { s with workers := s.workers.set i .idle, slots := s.slots.set (articleNumber articles a) file, log := s.log ++ [a] }

/-- A call of the cache for another file than an HTML file. -/
def CacheCall.NotHtml : CacheCall → Prop
  | .write folder _ _ _ _ _ => folder ≠ htmlDirName
  | .lookup folder _ _ _ => folder ≠ htmlDirName

/-- One step of one of the threads. `Allowed`: calls of the cache with usable names. -/
inductive BookStep (env : BookEnv) (Allowed : CacheCall → Prop) (articles : List Str) (threads : Nat) : Book → Book → Prop
  /-- the steps of the threads apart from `processArticle`, see `PoolStep` -/
  | pool {b : Book} {p : Pool} : PoolStep articles threads (fun _ _ => False) b.pool p →
      BookStep env Allowed articles threads b { b with pool := p }
  /-- articles, images, formulas and templates are looked up in the cache and stored in it -/
  | cache {b : Book} {i : Nat} {a : Str} {call : CacheCall} : b.pool.status = .running → b.pool.workers[i]? = some (.busy a) →
      Allowed call → call.NotHtml → BookStep env Allowed articles threads b { b with fs := (call.run env.cache b.fs).fs }
  /-- images are converted: another file than an HTML file is written -/
  | convert {b : Book} {i : Nat} {a p : Str} {f : File} : b.pool.status = .running → b.pool.workers[i]? = some (.busy a) →
      (∀ name, p ≠ getFilePathInCache env.cache.cacheDir htmlDirName name) →
      BookStep env Allowed articles threads b { b with fs := b.fs.put p f }
  /-- src/main.go:430-431: the HTML file exists -/
  | skip {b : Book} {i : Nat} {a : Str} : b.pool.status = .running → b.pool.workers[i]? = some (.busy a) →
      shouldRecreateHtml ⟨env.config.bool .forceRegenerateHtml, false, env.present, fun _ => none⟩ a = false →
      BookStep env Allowed articles threads b { b with pool := b.pool.store articles i a [] }
  /-- src/main.go:447-457: the HTML file is written -/
  | generate {b : Book} {i : Nat} {a page rnd file : Str} {now : Int} {faults : Nat → Bool} : b.pool.status = .running →
      b.pool.workers[i]? = some (.busy a) → PageOf env a page →
      Allowed (.write htmlDirName (htmlFileName a) ⟨page, true⟩ rnd now faults) →
      (cacheToFile env.cache htmlDirName (htmlFileName a) ⟨page, true⟩ rnd now faults 0 b.fs).res = .ok file →
      BookStep env Allowed articles threads b ⟨b.pool.store articles i a file,
        (cacheToFile env.cache htmlDirName (htmlFileName a) ⟨page, true⟩ rnd now faults 0 b.fs).fs⟩
  /-- one of the calls of `sigolo.FatalCheck` ends the program -/
  | fail {b : Book} {i : Nat} {a : Str} {fs : FS} : b.pool.status = .running → b.pool.workers[i]? = some (.busy a) →
      BookStep env Allowed articles threads b ⟨{ b.pool with status := .failed }, fs⟩

/-- Executions. -/
inductive BookRun (env : BookEnv) (Allowed : CacheCall → Prop) (articles : List Str) (threads : Nat) : Book → Book → Prop
  | refl (b : Book) : BookRun env Allowed articles threads b b
  | step {b c d : Book} : BookRun env Allowed articles threads b c → BookStep env Allowed articles threads c d →
      BookRun env Allowed articles threads b d

/-- The files as the go-epub library sees them when the book is generated, src/main.go:400-412. -/
def Book.epubEnv (b : Book) (succeeds : List EpubCall → EpubCall → Bool) : EpubEnv := ⟨fun p => (b.fs.get p).map File.content, succeeds⟩

end Verif.Model
