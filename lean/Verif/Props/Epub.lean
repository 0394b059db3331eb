import Verif.Lemmas.WikiLinks
import Verif.Model.Expand
import Verif.Spec.Pandoc
import Verif.Lemmas.Cut
import Verif.Lemmas.WikiLinks
import Verif.Model.Expand
import Verif.Model.Article
import Verif.Props.CleanLinks
import Verif.Props.Expand

/-!
# The e-book (C45, C55)
-/

namespace Verif.Props
open Verif.Go Verif.Model Verif.Spec
open scoped List

theorem readArgs_toc (rest : List Str) (i : PandocCall) :
    readArgs (b!"--toc" :: rest) i = readArgs rest { i with tableOfContents := true } := by
  cases rest with
  | nil => simp only [readArgs, if_true]
  | cons a r => rw [readArgs, if_pos rfl]

theorem readArgs_option {name value : Str} {rest : List Str} {i j : PandocCall} (h : readOption name value i = some j)
    (hn : name ≠ b!"--toc") : readArgs (name :: value :: rest) i = readArgs rest j := by
  rw [readArgs, if_neg hn, h]

theorem readArgs_word {arg : Str} {rest : List Str} {i j : PandocCall} (h : readWord arg i = some j)
    (h' : ∀ value, readOption arg value i = none) (hn : arg ≠ b!"--toc") :
    readArgs (arg :: rest) i = readArgs rest j := by
  cases rest with
  | nil => simp only [readArgs, if_neg hn, h]
  | cons a r => rw [readArgs, if_neg hn, h', h]

theorem readOption_f (v : Str) (i : PandocCall) : readOption b!"-f" v i = some { i with inputFormat := some v } := by
  unfold readOption; rw [if_pos rfl]
theorem readOption_t (v : Str) (i : PandocCall) : readOption b!"-t" v i = some { i with outputFormat := some v } := by
  unfold readOption; rw [if_neg (by decide), if_pos rfl]
theorem readOption_o (v : Str) (i : PandocCall) : readOption b!"-o" v i = some { i with outputFile := some v } := by
  unfold readOption; rw [if_neg (by decide), if_neg (by decide), if_pos rfl]
theorem readOption_metadata (v : Str) (i : PandocCall) :
    readOption b!"--metadata" v i = some { i with metadata := i.metadata ++ [keyValue v] } := by
  unfold readOption; rw [if_neg (by decide), if_neg (by decide), if_neg (by decide), if_pos rfl]
theorem readOption_tocDepth (v : Str) (i : PandocCall) : readOption b!"--toc-depth" v i = some { i with tocDepth := some v } := by
  unfold readOption; rw [if_neg (by decide), if_neg (by decide), if_neg (by decide), if_neg (by decide), if_pos rfl]
theorem readOption_dataDir (v : Str) (i : PandocCall) : readOption b!"--data-dir" v i = some { i with dataDir := some v } := by
  unfold readOption
  rw [if_neg (by decide), if_neg (by decide), if_neg (by decide), if_neg (by decide), if_neg (by decide), if_pos rfl]
theorem readOption_css (v : Str) (i : PandocCall) : readOption b!"--css" v i = some { i with css := i.css ++ [v] } := by
  unfold readOption
  rw [if_neg (by decide), if_neg (by decide), if_neg (by decide), if_neg (by decide), if_neg (by decide),
    if_neg (by decide), if_pos rfl]

theorem readWord_cover (v : Str) (i : PandocCall) :
    readWord (b!"--epub-cover-image=" ++ v) i = some { i with cover := some v } := by
  unfold readWord optionValue
  rw [if_pos (by rw [hasPrefix, List.isPrefixOf_iff_prefix]; exact List.prefix_append _ _)]
  rfl

theorem readWord_font (v : Str) (i : PandocCall) :
    readWord (b!"--epub-embed-font=" ++ v) i = some { i with fonts := i.fonts ++ [v] } := by
  unfold readWord optionValue
  rw [if_neg, if_pos (by rw [hasPrefix, List.isPrefixOf_iff_prefix]; exact List.prefix_append _ _)]
  · rfl
  · rw [hasPrefix, List.isPrefixOf_iff_prefix]
    rintro ⟨u, hu⟩
    simp at hu

theorem readOption_none {arg : Str} (h : ¬ arg ∈ [b!"-f", b!"-t", b!"-o", b!"--metadata", b!"--toc-depth", b!"--data-dir", b!"--css"])
    (value : Str) (i : PandocCall) : readOption arg value i = none := by
  simp only [List.mem_cons, List.not_mem_nil, or_false, not_or] at h
  obtain ⟨h1, h2, h3, h4, h5, h6, h7⟩ := h
  unfold readOption
  rw [if_neg h1, if_neg h2, if_neg h3, if_neg h4, if_neg h5, if_neg h6, if_neg h7]

theorem readArgs_fonts (fonts rest : List Str) (i : PandocCall) :
    readArgs (fonts.map (fun file => b!"--epub-embed-font=" ++ file) ++ rest) i =
      readArgs rest { i with fonts := i.fonts ++ fonts } := by
  induction fonts generalizing i with
  | nil => simp
  | cons f fs ih =>
    rw [List.map_cons, List.cons_append, readArgs_word (j := { i with fonts := i.fonts ++ [f] }), ih]
    · simp
    · exact readWord_font f i
    · exact fun v => readOption_none (by simp) v i
    · simp

theorem readArgs_inputs (files : List Str) (hf : ∀ f ∈ files, f.head? ≠ some 0x2D) (i : PandocCall) :
    readArgs files i = some { i with inputs := i.inputs ++ files } := by
  induction files generalizing i with
  | nil => simp [readArgs]
  | cons f fs ih =>
    have hh := hf f (by simp)
    have h1 : ∀ s : Str, s.head? = some 0x2D → f ≠ s := fun s hs he => hh (he ▸ hs)
    have h2 : ∀ s : Str, hasPrefix f (0x2D :: s) = false := by
      intro s
      cases f with
      | nil => rfl
      | cons c t =>
        simp only [List.head?_cons, ne_eq, Option.some.injEq] at hh
        simp [hasPrefix, List.isPrefixOf, beq_eq_false_iff_ne.mpr (Ne.symm hh)]
    rw [readArgs_word (j := { i with inputs := i.inputs ++ [f] }), ih (fun g hg => hf g (by simp [hg]))]
    · simp
    · unfold readWord optionValue
      simp only [List.cons_append, h2]
      simp
    · refine fun v => readOption_none (fun hm => ?_) v i
      simp only [List.mem_cons, List.not_mem_nil, or_false] at hm
      rcases hm with h | h | h | h | h | h | h <;> exact h1 _ rfl h
    · exact h1 _ rfl

/-- **C45**: for every configuration, every metadata and every list of article files whose paths do not begin with a
hyphen (they begin with the path of the cache), pandoc reads from the command line exactly what is wanted: all articles
in their order, and each option exactly when it is set. It is executed in the folder of the cache. -/
theorem C45_pandoc_gets_articles_and_options (env : EpubEnv) (c : Config) (files : List Str) (output : Str) (m : Metadata)
    (hd : c.str .outputDriver = b!"pandoc") (ht : c.str .outputType = b!"epub2" ∨ c.str .outputType = b!"epub3")
    (hf : ∀ f ∈ files, f.head? ≠ some 0x2D) :
    ∃ args, generateEpub env c files output m = .ok (.pandoc (c.str .pandocExecutable) (c.str .cacheDir) args) ∧
      readArgs args {} = some (wanted c files output m) := by
  refine ⟨pandocArgs c files output m, ?_, ?_⟩
  · unfold generateEpub
    rw [if_neg, if_pos hd]
    rintro ⟨h1, h2⟩
    rcases ht with h | h
    · exact h1 h
    · exact h2 h
  have hkv : ∀ (k v : Str), (0x3D : Byte) ∉ k → keyValue (k ++ b!"=" ++ v) = (k, v) := by
    intro k v hk
    unfold keyValue
    have h1 : ∀ x ∈ k, (decide (x ≠ 0x3D)) = true := fun x hx => by
      simp only [ne_eq, decide_not, Bool.not_eq_eq_eq_not, Bool.not_true, decide_eq_false_iff_not]
      exact fun h => hk (h ▸ hx)
    rw [List.append_assoc, List.takeWhile_append_of_pos h1, List.dropWhile_append_of_pos h1]
    simp
  have kv : keyValue (b!"title=" ++ m.title) = (b!"title", m.title) ∧ keyValue (b!"author=" ++ m.author) = (b!"author", m.author) ∧
      keyValue (b!"rights=" ++ m.license) = (b!"rights", m.license) ∧
      keyValue (b!"language=" ++ m.language) = (b!"language", m.language) ∧
      keyValue (b!"date=" ++ m.date) = (b!"date", m.date) :=
    ⟨hkv b!"title" _ (by decide), hkv b!"author" _ (by decide), hkv b!"rights" _ (by decide),
      hkv b!"language" _ (by decide), hkv b!"date" _ (by decide)⟩
  have htoc : ∀ (rest : List Str) (i : PandocCall),
      readArgs ((if c.int .tocDepth > 0 then [b!"--toc", b!"--toc-depth", decimalInt (c.int .tocDepth)] else []) ++ rest) i =
        readArgs rest { i with
          tableOfContents := i.tableOfContents || decide (c.int .tocDepth > 0)
          tocDepth := if c.int .tocDepth > 0 then some (decimalInt (c.int .tocDepth)) else i.tocDepth } := by
    intro rest i
    by_cases h : c.int .tocDepth > 0
    · simp only [if_pos h, List.cons_append, List.nil_append]
      rw [readArgs_toc, readArgs_option (readOption_tocDepth _ _) (by decide)]
      simp [h]
    · simp [h]
  have hdata : ∀ (rest : List Str) (i : PandocCall),
      readArgs ((if c.str .pandocDataDir ≠ [] then [b!"--data-dir", c.str .pandocDataDir] else []) ++ rest) i =
        readArgs rest { i with dataDir := if c.str .pandocDataDir = [] then i.dataDir else some (c.str .pandocDataDir) } := by
    intro rest i
    by_cases h : c.str .pandocDataDir = []
    · simp [h]
    · simp only [ne_eq, h, not_false_eq_true, if_true, if_false, List.cons_append, List.nil_append]
      rw [readArgs_option (readOption_dataDir _ _) (by decide)]
  have hcss : ∀ (rest : List Str) (i : PandocCall),
      readArgs ((if c.str .styleFile ≠ [] then [b!"--css", c.str .styleFile] else []) ++ rest) i =
        readArgs rest { i with css := i.css ++ (if c.str .styleFile = [] then [] else [c.str .styleFile]) } := by
    intro rest i
    by_cases h : c.str .styleFile = []
    · simp [h]
    · simp only [ne_eq, h, not_false_eq_true, if_true, if_false, List.cons_append, List.nil_append]
      rw [readArgs_option (readOption_css _ _) (by decide)]
  have hcover : ∀ (rest : List Str) (i : PandocCall),
      readArgs ((if c.str .coverImage ≠ [] then [b!"--epub-cover-image=" ++ c.str .coverImage] else []) ++ rest) i =
        readArgs rest { i with cover := if c.str .coverImage = [] then i.cover else some (c.str .coverImage) } := by
    intro rest i
    by_cases h : c.str .coverImage = []
    · simp [h]
    · simp only [ne_eq, h, not_false_eq_true, if_true, if_false, List.cons_append, List.nil_append]
      rw [readArgs_word (j := { i with cover := some (c.str .coverImage) })]
      · exact readWord_cover _ i
      · exact fun v => readOption_none (by simp) v i
      · simp
  unfold pandocArgs
  rw [List.append_assoc, List.append_assoc, List.append_assoc, List.append_assoc, List.append_assoc]
  change readArgs (b!"-f" :: b!"html" :: b!"-t" :: c.str .outputType :: b!"-o" :: output ::
    b!"--metadata" :: (b!"title=" ++ m.title) :: b!"--metadata" :: (b!"author=" ++ m.author) ::
    b!"--metadata" :: (b!"rights=" ++ m.license) :: b!"--metadata" :: (b!"language=" ++ m.language) ::
    b!"--metadata" :: (b!"date=" ++ m.date) :: (_ ++ (_ ++ (_ ++ (_ ++ (_ ++ _)))))) {} = _
  rw [readArgs_option (readOption_f _ _) (by decide)]
  dsimp only
  rw [readArgs_option (readOption_t _ _) (by decide)]
  dsimp only
  rw [readArgs_option (readOption_o _ _) (by decide)]
  dsimp only
  rw [readArgs_option (readOption_metadata _ _) (by decide)]
  dsimp only
  rw [readArgs_option (readOption_metadata _ _) (by decide)]
  dsimp only
  rw [readArgs_option (readOption_metadata _ _) (by decide)]
  dsimp only
  rw [readArgs_option (readOption_metadata _ _) (by decide)]
  dsimp only
  rw [readArgs_option (readOption_metadata _ _) (by decide)]
  dsimp only
  rw [List.nil_append, htoc]
  dsimp only
  rw [hdata]
  dsimp only
  rw [hcss]
  dsimp only
  rw [hcover]
  dsimp only
  rw [readArgs_fonts]
  dsimp only
  rw [readArgs_inputs files hf]
  dsimp only
  obtain ⟨k1, k2, k3, k4, k5⟩ := kv
  simp only [k1, k2, k3, k4, k5]
  simp [wanted]

/-- A configuration with a font, a cover and table of contents, but without style. -/
def epubConfig : Config :=
  let d := defaultConfig ⟨b!"/home/u/.cache", false, false⟩
  { d with
    str := fun o => if o = .coverImage then b!"/home/u/cover.png" else d.str o
    list := fun o => if o = .fontFiles then [b!"/home/u/a.ttf", b!"/home/u/b.ttf"] else d.list o }

example : epubConfig.str .outputDriver = b!"pandoc" ∧ epubConfig.str .outputType = b!"epub2" ∧
    (wanted epubConfig [b!"/c/html/A.html", b!"/c/html/B.html"] b!"-x.epub" ⟨b!"-t=x", [], [], [], []⟩).tocDepth = some b!"2" := by
  decide +kernel

/-! ### C55 -/

/-- The title is the text up to the last end of a heading of level one. -/
theorem sectionTitle_ok (before title after : Str) (hb : ¬ b!"<h1>" <:+: before) (ha : ¬ b!"</h1>" <:+: after) :
    sectionTitle (before ++ b!"<h1>" ++ (title ++ b!"</h1>" ++ after)) = .ok title := by
  have n1 : NoBorder (b!"<h1>" : Str) := by decide
  have n2 : NoBorder (b!"</h1>" : Str).reverse := by decide
  have h2 : ¬ (b!"</h1>" : Str).reverse <:+: after.reverse := by
    rw [List.reverse_infix]; exact ha
  unfold sectionTitle
  rw [n1.cut_append _ hb]
  dsimp only
  rw [List.reverse_append, List.reverse_append, ← List.append_assoc, n2.cut_append _ h2]
  dsimp only
  rw [List.reverse_reverse]

/-- An article as it is written to disk. -/
structure PageOnDisk where
  file : Str
  style : Str
  title : Str
  body : Str

/-- The file of an article: what `generateHtml` gives for the expanded text. -/
def PageOnDisk.text (p : PageOnDisk) : Str :=
  htmlHeader p.style ++ b!"\n<h1>" ++ p.title ++ b!"</h1>\n" ++ p.body ++ htmlFooter

/-- The sections of the book: text and title. -/
def bookSections (calls : List EpubCall) : List (Str × Str) :=
  calls.filterMap (fun | .addSection content title => some (content, title) | _ => none)

/-- A page is what the generator writes. -/
theorem PageOnDisk.text_generated (env : HtmlEnv) (tokens : List (Str × Token)) (fuel : Nat) (style title content body file : Str)
    (h : expandString env tokens fuel content = some (.ok body)) :
    generateHtml env tokens fuel style title content = some (.ok (PageOnDisk.text ⟨file, style, title, body⟩)) := by
  unfold generateHtml
  rw [h]
  rfl

theorem not_h1_header {style : Str} (hs : ¬ b!"<h1>" <:+: style) : ¬ b!"<h1>" <:+: htmlHeader style ++ b!"\n" := by
  intro h
  have e : htmlHeader style ++ b!"\n" =
      b!"<?xml version=\"1.0\" encoding=\"UTF-8\"?>\n<html xmlns=\"http://www.w3.org/1999/xhtml\">\n<head>\n<meta charset=\"utf-8\">\n<link rel=\"stylesheet\" href=" ++
        0x22 :: (style ++ 0x22 :: b!">\n</head>\n<body xmlns:epub=\"http://www.idpf.org/2007/ops\">\n\n") := by
    unfold htmlHeader
    rw [List.append_assoc, List.append_assoc]
    rfl
  rw [e] at h
  rcases infix_over (by decide) (by decide) h with h | h
  · revert h; decide +kernel
  · rcases infix_over (by decide) (by decide) h with h | h
    · exact hs h
    · revert h; decide +kernel

theorem PageOnDisk.sectionTitle_text (p : PageOnDisk) (hs : ¬ b!"<h1>" <:+: p.style) (hb : ¬ b!"</h1>" <:+: p.body) :
    sectionTitle p.text = .ok p.title := by
  have h1 : p.text = (htmlHeader p.style ++ b!"\n") ++ b!"<h1>" ++ (p.title ++ b!"</h1>" ++ (b!"\n" ++ p.body ++ htmlFooter)) := by
    simp [PageOnDisk.text]
  rw [h1]
  apply sectionTitle_ok
  · exact not_h1_header hs
  · intro h
    unfold htmlFooter at h
    rcases infix_over (by decide) (by decide) h with h | h
    · rcases infix_over (a := []) (by decide) (by decide) h with h | h
      · simp at h
      · exact hb h
    · revert h
      decide +kernel

/-- The calls for the articles. -/
def sectionCalls (pages : List PageOnDisk) : List EpubCall :=
  pages.flatMap fun p => [.addSection p.text p.title, .embedImages]

theorem addSections_ok (env : EpubEnv) (pages : List PageOnDisk)
    (hr : ∀ p ∈ pages, env.readFile p.file = some p.text)
    (hs : ∀ p ∈ pages, ¬ b!"<h1>" <:+: p.style) (hb : ∀ p ∈ pages, ¬ b!"</h1>" <:+: p.body) (calls : List EpubCall) :
    addSections env (pages.map (·.file)) calls = .ok (calls ++ sectionCalls pages) ∨
    addSections env (pages.map (·.file)) calls = .err ∧ ∃ b c, env.succeeds b c ≠ true := by
  induction pages generalizing calls with
  | nil => simp [addSections, sectionCalls]
  | cons p rest ih =>
    simp only [List.map_cons, addSections]
    rw [hr p (by simp)]
    dsimp only
    rw [p.sectionTitle_text (hs p (by simp)) (hb p (by simp))]
    simp only [epubCall, Res.bind_ok]
    by_cases hsucc : env.succeeds calls (.addSection p.text p.title)
    · rw [if_pos hsucc, Res.bind_ok]
      have i1 := ih (fun q hq => hr q (by simp [hq])) (fun q hq => hs q (by simp [hq]))
        (fun q hq => hb q (by simp [hq])) (calls ++ [.addSection p.text p.title] ++ [.embedImages])
      simpa [sectionCalls] using i1
    · rw [if_neg hsucc, Res.bind_err]
      exact .inr ⟨rfl, _, _, hsucc⟩

theorem addFonts_ok (env : EpubEnv) (fonts : List Str) (calls : List EpubCall) :
    addFonts env fonts calls = .ok (calls ++ fonts.map .addFont) ∨
    addFonts env fonts calls = .err ∧ ∃ b c, env.succeeds b c ≠ true := by
  induction fonts generalizing calls with
  | nil => simp [addFonts]
  | cons f rest ih =>
    simp only [addFonts, epubCall]
    by_cases hsucc : env.succeeds calls (.addFont f)
    · rw [if_pos hsucc, Res.bind_ok]
      have i1 := ih (calls ++ [.addFont f])
      rw [List.append_assoc] at i1
      exact i1
    · rw [if_neg hsucc, Res.bind_err]
      exact .inr ⟨rfl, _, _, hsucc⟩

theorem epubCall_ok (env : EpubEnv) (calls : List EpubCall) (call : EpubCall) :
    epubCall env calls call = .ok (calls ++ [call]) ∨
      epubCall env calls call = .err ∧ ∃ b c, env.succeeds b c ≠ true := by
  unfold epubCall
  by_cases h : env.succeeds calls call
  · simp [h]
  · exact .inr ⟨by simp [h], _, _, h⟩

theorem resBind_assoc {α β γ : Type} (r : Res α) (f : α → Res β) (g : β → Res γ) :
    ((r >>= f) >>= g) = (r >>= fun a => f a >>= g) := by
  cases r <;> rfl

/-- A step that succeeds unless the library fails. -/
theorem step_ok {α : Type} {P : Prop} {r : Res α} {a : α} {f : α → Res EpubAction} {b : EpubAction} (h : r = .ok a ∨ r = .err ∧ P)
    (hf : f a = .ok b ∨ f a = .err ∧ P) : (r >>= f) = .ok b ∨ (r >>= f) = .err ∧ P := by
  rcases h with h | ⟨h, p⟩
  · rw [h, Res.bind_ok]; exact hf
  · rw [h, Res.bind_err]; exact .inr ⟨rfl, p⟩

theorem generateEpub_internal (env : EpubEnv) (c : Config) (pages : List PageOnDisk) (output : Str) (m : Metadata)
    (hd : c.str .outputDriver = b!"internal") (ht : c.str .outputType = b!"epub2" ∨ c.str .outputType = b!"epub3")
    (hr : ∀ p ∈ pages, env.readFile p.file = some p.text)
    (hs : ∀ p ∈ pages, ¬ b!"<h1>" <:+: p.style) (hb : ∀ p ∈ pages, ¬ b!"</h1>" <:+: p.body) :
    generateEpub env c (pages.map (·.file)) output m =
      .ok (.library ([.setAuthor m.author, .setLang m.language, .setTitle m.title] ++ [.addImage (c.str .coverImage)] ++
        [.setCover] ++ sectionCalls pages ++ [.addCss (c.str .styleFile)] ++ (c.list .fontFiles).map .addFont ++
        [.write output])) ∨
    generateEpub env c (pages.map (·.file)) output m = .err ∧ ∃ b c, env.succeeds b c ≠ true := by
  unfold generateEpub
  rw [if_neg, if_neg (by rw [hd]; decide), if_pos hd]
  · unfold epubWithLibrary
    dsimp only
    simp only [resBind_assoc]
    refine step_ok (epubCall_ok _ _ _) ?_
    refine step_ok (epubCall_ok _ _ _) ?_
    refine step_ok (addSections_ok env pages hr hs hb _) ?_
    refine step_ok (epubCall_ok _ _ _) ?_
    refine step_ok (addFonts_ok _ _ _) ?_
    refine step_ok (epubCall_ok _ _ _) ?_
    exact .inl rfl
  · rintro ⟨h1, h2⟩
    rcases ht with h | h
    · exact h1 h
    · exact h2 h

/-- The files of which a book consists, in the internal driver: texts and titles of the sections, style, fonts, cover. -/
structure BookParts where
  title : List Str
  author : List Str
  language : List Str
  cover : List Str
  sections : List (Str × Str)
  styles : List Str
  fonts : List Str

/-- What the calls of the library put into the book. -/
def bookParts (calls : List EpubCall) : BookParts where
  title := calls.filterMap fun | .setTitle s => some s | _ => none
  author := calls.filterMap fun | .setAuthor s => some s | _ => none
  language := calls.filterMap fun | .setLang s => some s | _ => none
  cover := calls.filterMap fun | .addImage s => some s | _ => none
  sections := calls.filterMap fun | .addSection content title => some (content, title) | _ => none
  styles := calls.filterMap fun | .addCss s => some s | _ => none
  fonts := calls.filterMap fun | .addFont s => some s | _ => none

/-- **C55** (partly): with the internal driver, every article becomes one section of the book, in the order of the
articles, with its text, titled with the title of the article, whatever the title is; the metadata and the configured
style, fonts and cover are in the book, and everything is there before the book is written, once, to the output file. If
the library makes no errors then the book is generated, and in no case does the program crash. This holds for all
articles whose text has no `</h1>`. Missing: articles with headings of the first level, for which it is false (see
below). -/
theorem C55_articles_become_sections_partial (env : EpubEnv) (c : Config) (pages : List PageOnDisk) (output : Str) (m : Metadata)
    (hd : c.str .outputDriver = b!"internal") (ht : c.str .outputType = b!"epub2" ∨ c.str .outputType = b!"epub3")
    (hr : ∀ p ∈ pages, env.readFile p.file = some p.text)
    (hs : ∀ p ∈ pages, ¬ b!"<h1>" <:+: p.style) (hb : ∀ p ∈ pages, ¬ b!"</h1>" <:+: p.body) :
    (∀ action, generateEpub env c (pages.map (·.file)) output m = .ok action →
      ∃ calls, action = .library (calls ++ [.write output]) ∧ (∀ path, .write path ∉ calls) ∧
        bookParts calls = {
          title := [m.title], author := [m.author], language := [m.language], cover := [c.str .coverImage]
          sections := pages.map (fun p => (p.text, p.title))
          styles := [c.str .styleFile], fonts := c.list .fontFiles }) ∧
    generateEpub env c (pages.map (·.file)) output m ≠ .panic ∧
    ((∀ b c, env.succeeds b c = true) → ∃ action, generateEpub env c (pages.map (·.file)) output m = .ok action) := by
  rcases generateEpub_internal env c pages output m hd ht hr hs hb with h | ⟨h, b, c', hn⟩
  · rw [h]
    refine ⟨fun action ha => ⟨_, (Res.ok.inj ha).symm, ?_, ?_⟩, by simp, fun _ => ⟨_, rfl⟩⟩
    · simp [sectionCalls]
    · have e1 : ∀ {β : Type} (f : EpubCall → Option β), (∀ p ∈ pages, f (.addSection p.text p.title) = none) → f .embedImages = none →
          (sectionCalls pages).filterMap f = [] := by
        intro β f h1 h2
        simp only [sectionCalls, List.filterMap_flatMap]
        rw [List.flatMap_eq_nil_iff]
        intro p hp
        simp [h1 p hp, h2]
      have e2 : (sectionCalls pages).filterMap (fun | .addSection content title => some (content, title) | _ => none) =
          pages.map (fun p => (p.text, p.title)) := by
        simp only [sectionCalls, List.filterMap_flatMap]
        clear h ha e1 hr hs hb
        induction pages with
        | nil => rfl
        | cons p rest ih => simp only [List.flatMap_cons, ih, List.map_cons]; rfl
      simp [bookParts, List.filterMap_append, e1, e2, List.filterMap_map]
  · rw [h]
    exact ⟨fun _ h => by simp at h, by simp, fun h => absurd (h b c') hn⟩

/-- An article "A" with the text "x" and an article "B" with a heading of the first level. -/
def pageA : PageOnDisk := ⟨b!"/c/html/A.html", b!"../style.css", b!"A", b!"x<h2>y</h2>"⟩

example : ¬ b!"<h1>" <:+: pageA.style ∧ ¬ b!"</h1>" <:+: pageA.body := by decide +kernel

/-- What the code makes of an article with a heading of the first level: the title of its section is the whole text up
to that heading. -/
theorem C55_heading_of_level_one_swallows_text (style title before heading after file : Str)
    (hs : ¬ b!"<h1>" <:+: style) (ha : ¬ b!"</h1>" <:+: after) :
    sectionTitle (PageOnDisk.text ⟨file, style, title, before ++ (b!"<h1>" ++ heading ++ b!"</h1>") ++ after⟩) =
      .ok (title ++ b!"</h1>\n" ++ before ++ b!"<h1>" ++ heading) := by
  have e : PageOnDisk.text ⟨file, style, title, before ++ (b!"<h1>" ++ heading ++ b!"</h1>") ++ after⟩ =
      (htmlHeader style ++ b!"\n") ++ b!"<h1>" ++
        ((title ++ b!"</h1>\n" ++ before ++ b!"<h1>" ++ heading) ++ b!"</h1>" ++ (after ++ htmlFooter)) := by
    simp [PageOnDisk.text]
  rw [e]
  apply sectionTitle_ok
  · exact not_h1_header hs
  · intro h
    unfold htmlFooter at h
    rcases infix_over (by decide) (by decide) h with h | h
    · exact ha h
    · revert h; decide +kernel

/-- Such a text: the title of the section for the article "A" begins with the title and contains its text up to the
heading "History". -/
theorem C55_title_of_section_is_wrong :
    articleBody tokenizerEnv htmlEnv 60 b!"Some text.\n= History =\nMore." = some (.ok b!"Some text.\n<h1>History</h1>\nMore.") ∧
    sectionTitle (PageOnDisk.text ⟨b!"A.html", b!"style.css", b!"A", b!"Some text.\n<h1>History</h1>\nMore."⟩) =
      .ok b!"A</h1>\nSome text.\n<h1>History" := by
  decide +kernel

end Verif.Props
