import Verif.Model.Book
import Verif.Props.Concurrent
import Verif.Props.Workers
import Verif.Props.Epub
import Verif.Props.Document
import Verif.Lemmas.Config

/-! # C67: the book contains the pages of all articles -/

namespace Verif.Props
open Verif.Go Verif.Model Verif.Spec Verif.Lemmas FSl
open scoped List

variable {env : BookEnv} {articles : List Str} {threads : Nat}

/-- The path of the HTML file of an article. -/
def bookFile (env : BookEnv) (a : Str) : Str := getFilePathInCache env.cache.cacheDir b!"html" (a ++ b!".html")

theorem pageOf_unique {a p q : Str} (hp : PageOf env a p) (hq : PageOf env a q) : p = q := by
  obtain ⟨m, hm⟩ := hp
  obtain ⟨n, hn⟩ := hq
  have := (hm (m + n) (by omega)).symm.trans (hn (m + n) (by omega))
  simpa using this

/-- A cache directory that is not called `.tmp`. -/
def UsableCacheDir (env : CacheEnv) : Prop := (cleanElems env.cacheDir).getLast? ≠ some b!".tmp"

theorem html_key (hd : UsableCacheDir env.cache) (a : Str) : ValidKey env.cache htmlDirName (htmlFileName a) := by
  refine ⟨cache_folders_plain _ (by decide), by decide, ?_, hd⟩
  have hl : 5 ≤ (htmlFileName a).length := by simp [htmlFileName]
  intro hm
  simp only [List.mem_cons, List.not_mem_nil, or_false] at hm
  rcases hm with h | h | h <;> rw [h] at hl <;> simp at hl

/-! ## The threads -/

theorem poolStep_mono {Result : Str → Option Str → Prop} {s t : Pool} (h : PoolStep articles threads (fun _ _ => False) s t) :
    PoolStep articles threads Result s t := by
  cases h with
  | send h1 h2 h3 => exact .send h1 h2 h3
  | close h1 h2 h3 => exact .close h1 h2 h3
  | take h1 h2 h3 => exact .take h1 h2 h3
  | finish _ _ h => exact h.elim
  | fail _ _ h => exact h.elim
  | exit h1 h2 h3 h4 => exact .exit h1 h2 h3 h4
  | wait h1 h2 h3 => exact .wait h1 h2 h3

/-- HTML files that are present are not used. -/
def Regenerates (env : BookEnv) (articles : List Str) : Prop :=
  ∀ a ∈ articles, env.config.bool .forceRegenerateHtml = true ∨ env.present a = false

/-- What the threads do is an execution of `PoolRun`. -/
theorem book_pool (hw : WalkOk env.cache) {fs0 : FS} (hwf : fs0.WF) {b : Book}
    (h : BookRun env (ValidCall env.cache) articles threads (Book.start articles threads fs0) b) :
    ∃ n, PoolRun articles threads (fun a r => r = none ∨ r = some (bookFile env a) ∨
      r = some [] ∧ ¬ (env.config.bool .forceRegenerateHtml = true ∨ env.present a = false)) n (Pool.start articles threads) b.pool ∧
      (b.pool.status ≠ .failed → b.fs.WF) := by
  generalize hs : Book.start articles threads fs0 = b0 at h
  induction h with
  | refl =>
    subst hs
    exact ⟨0, .zero _, fun _ => hwf⟩
  | @step c d _ hst ih =>
    obtain ⟨n, hr, hw'⟩ := ih
    have hrun : c.pool.status = .running → c.fs.WF := fun e => hw' (by rw [e]; decide)
    cases hst with
    | pool hp =>
      refine ⟨n + 1, .step hr (poolStep_mono hp), fun hst => ?_⟩
      cases hp with
      | send h1 _ _ => exact hrun h1
      | close h1 _ _ => exact hrun h1
      | take h1 _ _ => exact hrun h1
      | finish _ _ h => exact h.elim
      | fail _ _ h => exact h.elim
      | exit h1 _ _ _ => exact hrun h1
      | wait h1 _ _ => exact hrun h1
    | @cache i a call h1 h2 h3 h4 =>
      refine ⟨n, hr, fun _ => ?_⟩
      have hst := call_states hw h3 (hrun h1) (f := (call.run env.cache c.fs).fs) (by simp)
      cases call with
      | write folder name reader rnd now faults =>
        rcases hst with hm | hd
        · exact (mid_facts h3.1 h3.2 (hrun h1) hm).1
        · exact (done_facts h3.1 h3.2 (hrun h1) hd).1
      | lookup folder name now faults => exact (lookup_facts h3 (hrun h1) hst).1
    | convert h1 h2 h3 => exact ⟨n, hr, fun _ => WF_put (hrun h1) _ _⟩
    | @skip i a h1 h2 h3 =>
      refine ⟨n + 1, .step hr (.finish h1 h2 (Or.inr (Or.inr ⟨rfl, ?_⟩))), fun _ => hrun h1⟩
      intro h4
      rw [shouldRecreateHtml] at h3
      rcases h4 with h4 | h4 <;> simp [h4] at h3
    | @generate i a page rnd file now faults h1 h2 h3 h4 h5 =>
      have e := C01_write_success (env := env.cache) _ _ _ _ _ _ _ _ hw h4.1 h4.2 (hrun h1) file h5
      refine ⟨n + 1, .step hr (.finish h1 h2 (Or.inr (Or.inl (by rw [e.1]; rfl)))), fun _ => ?_⟩
      have hst := write_state (ff := faults) (reader := ⟨page, true⟩) (now := now) h4.1 h4.2 hw (hrun h1) 0
      rcases hst with hm | hd
      · exact (mid_facts h4.1 h4.2 (hrun h1) hm).1
      · exact (done_facts h4.1 h4.2 (hrun h1) hd).1
    | fail h1 h2 => exact ⟨n + 1, .step hr (.fail h1 h2 (Or.inl rfl)), fun hst => absurd rfl hst⟩

/-! ## The files -/

theorem bookFile_inj (hd : UsableCacheDir env.cache) {a b : Str} (h : bookFile env a = bookFile env b) : a = b := by
  have h1 := html_key hd a
  have h2 := html_key hd b
  have := (C09_entry_paths_injective env.cache.cacheDir htmlDirName htmlDirName _ _ h1.folder_plain h2.folder_plain h1.name_ok h2.name_ok h).2
  exact List.append_cancel_right this

/-- The file of the article contains its page. -/
def HasPage (env : BookEnv) (fs : FS) (a : Str) : Prop := ∀ page, PageOf env a page → ∃ f, fs.get (bookFile env a) = some f ∧ f.content = page

theorem book_files (hw : WalkOk env.cache) (hd : UsableCacheDir env.cache) (hs : env.cache.strategy = .none) {fs0 : FS} (hwf : fs0.WF) {b : Book}
    (h : BookRun env (ValidCall env.cache) articles threads (Book.start articles threads fs0) b) (hok : b.pool.status ≠ .failed)
    (hre : Regenerates env articles) : ∀ a ∈ b.pool.log, a ∈ articles → HasPage env b.fs a := by
  generalize hst : Book.start articles threads fs0 = b0 at h
  induction h with
  | refl => subst hst; simp [Book.start, Pool.start]
  | @step c d hrun hstep ih =>
    subst hst
    obtain ⟨n, -, hwf'⟩ := book_pool hw hwf hrun
    cases hstep with
    | pool hp =>
      cases hp with
      | send h1 _ _ => exact ih (by rw [h1]; decide)
      | close h1 _ _ => exact ih (by rw [h1]; decide)
      | take h1 _ _ => exact ih (by rw [h1]; decide)
      | finish _ _ h => exact h.elim
      | fail _ _ h => exact h.elim
      | exit h1 _ _ _ => exact ih (by rw [h1]; decide)
      | wait h1 _ _ => exact ih (by rw [h1]; decide)
    | @cache i a call h1 h2 h3 h4 =>
      have hr : c.pool.status ≠ .failed := by rw [h1]; decide
      intro x hx hxa page hp
      obtain ⟨f, hf, hc⟩ := ih hr x hx hxa page hp
      have hkx := html_key (env := env) hd x
      refine ⟨f, ?_, hc⟩
      rw [← hf]
      cases call with
      | write folder name reader rnd now faults =>
        show ((CacheCall.write folder name reader rnd now faults).run env.cache c.fs).fs.get _ = _
        rw [(write_run_log _ _ _ _ _ _ _).2]
        refine C06_no_strategy_no_loss env.cache folder name reader rnd now faults 0 c.fs hw h3.1 h3.2 (hwf' hr) hs _ (by simp) _
          (temp_ne_out hkx h3.2).symm (other_entry h3.1 hkx fun e => h4 e.1)
      | lookup folder name now faults =>
        have hst := call_states hw h3 (hwf' hr) (f := ((CacheCall.lookup folder name now faults).run env.cache c.fs).fs) (by simp)
        exact (lookup_facts h3 (hwf' hr) hst).2.2.1 _ (other_entry h3 hkx fun e => h4 e.1)
    | @convert i a p f h1 h2 h3 =>
      have hr : c.pool.status ≠ .failed := by rw [h1]; decide
      intro x hx hxa page hp
      obtain ⟨g, hg, hc⟩ := ih hr x hx hxa page hp
      exact ⟨g, by show (c.fs.put p f).get _ = _; rw [get_put_ne (show bookFile env x ≠ p from (h3 _).symm)]; exact hg, hc⟩
    | @skip i a h1 h2 h3 =>
      have hr : c.pool.status ≠ .failed := by rw [h1]; decide
      intro x hx hxa
      rcases List.mem_append.mp hx with hx | hx
      · exact ih hr x hx hxa
      · rw [List.mem_singleton] at hx
        subst hx
        rw [shouldRecreateHtml] at h3
        rcases hre x hxa with h4 | h4 <;> simp [h4] at h3
    | @generate i a page rnd file now faults h1 h2 h3 h4 h5 =>
      have hr : c.pool.status ≠ .failed := by rw [h1]; decide
      have e := C01_write_success (env := env.cache) _ _ _ _ _ _ _ _ hw h4.1 h4.2 (hwf' hr) file h5
      intro x hx hxa page' hp
      by_cases hxe : x = a
      · subst hxe
        have := pageOf_unique hp h3
        subst this
        have h6 := e.2.2.1
        rw [e.1] at h6
        exact ⟨_, h6, rfl⟩
      · have hx : x ∈ c.pool.log := by
          rcases List.mem_append.mp hx with hx | hx
          · exact hx
          · exact absurd (List.mem_singleton.mp hx) hxe
        obtain ⟨g, hg, hc⟩ := ih hr x hx hxa page' hp
        refine ⟨g, ?_, hc⟩
        rw [← hg]
        exact C06_no_strategy_no_loss env.cache _ _ ⟨page, true⟩ rnd now faults 0 c.fs hw h4.1 h4.2 (hwf' hr) hs _ (by simp) _
          (temp_ne_out (html_key hd x) h4.2).symm (fun h => hxe (bookFile_inj hd h))
    | fail h1 h2 => exact absurd rfl hok

/-! ## The book -/

theorem perm_mem_log {s : Pool} {a : Str} (h : s.log.Perm articles) (ha : a ∈ articles) : a ∈ s.log := h.mem_iff.mpr ha

/-- The article of the wiki is the one of the specification. -/
structure WellFormedArticle (env : BookEnv) (a : Str) (doc : List (Nat × DocBlock)) : Prop where
  download : env.download a = .ok (join b!"\n" (documentSource doc))
  ok : DocOk env.parser doc
  rendered : ∀ b ∈ doc, b.2.AllLines (Rendered env.html)

/-- The page of an article as **C59** describes it. -/
def expectedPage (env : BookEnv) (a : Str) (doc : List (Nat × DocBlock)) : Str :=
  htmlHeader env.style ++ b!"\n<h1>" ++ a ++ b!"</h1>\n" ++
    join b!"\n" (documentHtml ⟨ArticleImage.html env.parser (imageSource env.html), formulaPicture env.html⟩ false doc) ++ htmlFooter

theorem pageOf_wellFormed (hp : PlainPrefixes env.parser) {a : Str} {doc : List (Nat × DocBlock)} (h : WellFormedArticle env a doc) :
    PageOf env a (expectedPage env a doc) := by
  obtain ⟨steps, hs⟩ := C59_articles_become_html_partial env.parser hp env.templates env.iterate env.html env.style a doc h.ok h.rendered
  refine ⟨steps, fun fuel hf => ?_⟩
  rw [articlePage, h.download]
  exact hs fuel hf

theorem book_slots (hw : WalkOk env.cache) {fs0 : FS} (hwf : fs0.WF) (ht : 0 < threads) (hnd : articles.Nodup) (hre : Regenerates env articles) {b : Book}
    (h : BookRun env (ValidCall env.cache) articles threads (Book.start articles threads fs0) b) (hfin : b.pool.status = .finished) :
    b.pool.slots = articles.map (bookFile env) := by
  obtain ⟨n, hrun, -⟩ := book_pool hw hwf h
  obtain ⟨hlog, hlen, hslots⟩ := C19_files_in_article_order threads n b.pool ht hnd hrun hfin
  refine List.ext_getElem? fun i => ?_
  rw [List.getElem?_map]
  cases hi : articles[i]? with
  | none =>
    rw [List.getElem?_eq_none_iff] at hi
    rw [List.getElem?_eq_none (by omega)]
    rfl
  | some a =>
    obtain ⟨r, hr, hres⟩ := hslots i a hi
    rw [hr]
    rcases hres with h | h | ⟨h, hn⟩
    · cases h
    · simpa using h
    · exact absurd (hre a (List.mem_of_getElem? hi)) hn

/-- **C67** (partial: without an eviction strategy, without repeated articles and without HTML files from earlier runs)
For every number of worker threads and every execution: when the threads are done and the book is generated, the list of
files has the file of each article in the order of the project, and each file contains the whole page of its article. -/
theorem C67_book_has_the_pages_of_all_articles_partial (env : BookEnv) (articles : List Str) (threads : Nat) (fs0 : FS) (b : Book)
    (hw : WalkOk env.cache) (hd : UsableCacheDir env.cache) (hs : env.cache.strategy = .none) (hwf : fs0.WF) (ht : 0 < threads)
    (hnd : articles.Nodup) (hre : Regenerates env articles)
    (h : BookRun env (ValidCall env.cache) articles threads (Book.start articles threads fs0) b) (hfin : b.pool.status = .finished) :
    b.pool.slots = articles.map (bookFile env) ∧
    ∀ a ∈ articles, ∀ page, PageOf env a page → ∃ f, b.fs.get (bookFile env a) = some f ∧ f.content = page := by
  obtain ⟨n, hrun, -⟩ := book_pool hw hwf h
  obtain ⟨hlog, hlen, hslots⟩ := C19_files_in_article_order threads n b.pool ht hnd hrun hfin
  exact ⟨book_slots hw hwf ht hnd hre h hfin, fun a ha => book_files hw hd hs hwf h (by rw [hfin]; decide) hre a (perm_mem_log hlog ha) ha⟩

/-- **C67** (with pandoc) If in addition the articles are such as in **C59**, then pandoc is asked to make the book of exactly
these files in this order, and the files contain exactly the HTML of the articles. -/
theorem C67_pandoc_gets_the_pages_partial (env : BookEnv) (articles : List Str) (threads : Nat) (fs0 : FS) (b : Book)
    (hw : WalkOk env.cache) (hd : UsableCacheDir env.cache) (ha : isAbs env.cache.cacheDir = true) (hs : env.cache.strategy = .none)
    (hwf : fs0.WF) (ht : 0 < threads) (hnd : articles.Nodup) (hre : Regenerates env articles) (hp : PlainPrefixes env.parser)
    (docs : Str → List (Nat × DocBlock)) (hdocs : ∀ a ∈ articles, WellFormedArticle env a (docs a))
    (h : BookRun env (ValidCall env.cache) articles threads (Book.start articles threads fs0) b) (hfin : b.pool.status = .finished)
    (succeeds : List EpubCall → EpubCall → Bool) (output : Str) (m : Metadata)
    (hdriver : env.config.str .outputDriver = b!"pandoc")
    (htype : env.config.str .outputType = b!"epub2" ∨ env.config.str .outputType = b!"epub3") :
    (∃ args, generateEpub (b.epubEnv succeeds) env.config b.pool.slots output m =
        .ok (.pandoc (env.config.str .pandocExecutable) (env.config.str .cacheDir) args) ∧
      readArgs args {} = some (wanted env.config (articles.map (bookFile env)) output m)) ∧
    ∀ a ∈ articles, ∃ f, b.fs.get (bookFile env a) = some f ∧ f.content = expectedPage env a (docs a) := by
  obtain ⟨h1, h2⟩ := C67_book_has_the_pages_of_all_articles_partial env articles threads fs0 b hw hd hs hwf ht hnd hre h hfin
  refine ⟨?_, fun a hx => h2 a hx _ (pageOf_wellFormed hp (hdocs a hx))⟩
  rw [h1]
  refine C45_pandoc_gets_articles_and_options _ env.config _ output m hdriver htype fun f hf => ?_
  obtain ⟨a, -, rfl⟩ := List.mem_map.mp hf
  have := isAbs_iff.mp (isAbs_pathJoin (l := [htmlDirName, sanitizeFilename (htmlFileName a)]) ha)
  show (pathJoin [env.cache.cacheDir, htmlDirName, sanitizeFilename (htmlFileName a)]).head? ≠ _
  rw [this]
  decide

/-- The HTML of the article in its file, see **C59**. -/
def expectedBody (env : BookEnv) (doc : List (Nat × DocBlock)) : Str :=
  join b!"\n" (documentHtml ⟨ArticleImage.html env.parser (imageSource env.html), formulaPicture env.html⟩ false doc)

/-- **C67** (with the internal driver) For such articles, if none of them has a heading of the first level, the book has
one section per article, in the order of the project, with the HTML and the title of the article. -/
theorem C67_library_gets_the_pages_partial (env : BookEnv) (articles : List Str) (threads : Nat) (fs0 : FS) (b : Book)
    (hw : WalkOk env.cache) (hd : UsableCacheDir env.cache) (hs : env.cache.strategy = .none)
    (hwf : fs0.WF) (ht : 0 < threads) (hnd : articles.Nodup) (hre : Regenerates env articles) (hp : PlainPrefixes env.parser)
    (docs : Str → List (Nat × DocBlock)) (hdocs : ∀ a ∈ articles, WellFormedArticle env a (docs a))
    (hstyle : ¬ b!"<h1>" <:+: env.style) (hbody : ∀ a ∈ articles, ¬ b!"</h1>" <:+: expectedBody env (docs a))
    (h : BookRun env (ValidCall env.cache) articles threads (Book.start articles threads fs0) b) (hfin : b.pool.status = .finished)
    (succeeds : List EpubCall → EpubCall → Bool) (output : Str) (m : Metadata)
    (hdriver : env.config.str .outputDriver = b!"internal")
    (htype : env.config.str .outputType = b!"epub2" ∨ env.config.str .outputType = b!"epub3") :
    (∀ action, generateEpub (b.epubEnv succeeds) env.config b.pool.slots output m = .ok action →
      ∃ calls, action = .library (calls ++ [.write output]) ∧
        (bookParts calls).sections = articles.map fun a => (expectedPage env a (docs a), a)) ∧
    generateEpub (b.epubEnv succeeds) env.config b.pool.slots output m ≠ .panic ∧
    ((∀ c d, succeeds c d = true) → ∃ action, generateEpub (b.epubEnv succeeds) env.config b.pool.slots output m = .ok action) := by
  obtain ⟨h1, h2⟩ := C67_book_has_the_pages_of_all_articles_partial env articles threads fs0 b hw hd hs hwf ht hnd hre h hfin
  have ht : ∀ a, expectedPage env a (docs a) = PageOnDisk.text ⟨bookFile env a, env.style, a, expectedBody env (docs a)⟩ := by
    intro a
    rfl
  have := C55_articles_become_sections_partial (b.epubEnv succeeds) env.config
    (articles.map fun a => ⟨bookFile env a, env.style, a, expectedBody env (docs a)⟩) output m hdriver htype
    (by
      intro p hpm
      obtain ⟨a, ha, rfl⟩ := List.mem_map.mp hpm
      obtain ⟨f, hf, hc⟩ := h2 a ha _ (pageOf_wellFormed hp (hdocs a ha))
      show (b.fs.get (bookFile env a)).map File.content = _
      rw [hf, ← ht a, ← hc]
      rfl)
    (by
      intro p hpm
      obtain ⟨a, ha, rfl⟩ := List.mem_map.mp hpm
      exact hstyle)
    (by
      intro p hpm
      obtain ⟨a, ha, rfl⟩ := List.mem_map.mp hpm
      exact hbody a ha)
  have hsl : (articles.map fun a => (⟨bookFile env a, env.style, a, expectedBody env (docs a)⟩ : PageOnDisk)).map (·.file) = b.pool.slots := by
    rw [h1, List.map_map]
    rfl
  rw [hsl] at this
  refine ⟨fun action ha => ?_, this.2.1, this.2.2⟩
  obtain ⟨calls, c1, -, c2⟩ := this.1 action ha
  refine ⟨calls, c1, ?_⟩
  rw [c2, List.map_map]
  refine List.map_congr_left fun a _ => ?_
  rw [ht a]
  rfl

/-! ## Executions exist -/

theorem bookRun_trans {Allowed : CacheCall → Prop} {b c d : Book} (h1 : BookRun env Allowed articles threads b c)
    (h2 : BookRun env Allowed articles threads c d) : BookRun env Allowed articles threads b d := by
  induction h2 with
  | refl => exact h1
  | step _ hs ih => exact .step ih hs

/-- Only HTML files are in the file system. -/
def OnlyBook (env : BookEnv) (fs : FS) : Prop := fs.WF ∧ ∀ p, fs.get p ≠ none → ∃ a, p = bookFile env a

theorem onlyBook_temp (hd : UsableCacheDir env.cache) {fs : FS} (h : OnlyBook env fs) {a rnd : Str} (hr : Digits rnd) :
    tempSize env.cache.cacheDir fs = 0 ∧ fs.get (tempFilepath env.cache (htmlFileName a) rnd) = none := by
  constructor
  · have : fs.filter (fun e => under env.cache.cacheDir e.1 && !visited env.cache.cacheDir b!".tmp" e.1) = [] := by
      rw [List.filter_eq_nil_iff]
      intro e he
      obtain ⟨x, hx⟩ := h.2 e.1 (by rw [get_of_mem h.1 he]; simp)
      rw [hx]
      have := visited_out (html_key (env := env) hd x)
      simp only [bookFile]
      simp only [htmlDirName, htmlFileName] at this
      simp [this]
    rw [tempSize, this]
    rfl
  · by_contra hn
    obtain ⟨x, hx⟩ := h.2 _ hn
    exact temp_ne_out (html_key hd x) hr hx

/-- A page that is small enough is written. -/
theorem small_page (hw : WalkOk env.cache) (hd : UsableCacheDir env.cache) {fs : FS} (h : OnlyBook env fs) {a page rnd : Str} (hr : Digits rnd)
    (hsize : 2 * (page.length : Int) < env.cache.maxSize) (now : Int) :
    (cacheToFile env.cache htmlDirName (htmlFileName a) ⟨page, true⟩ rnd now noFaults 0 fs).res = .ok (bookFile env a) ∧
    OnlyBook env (cacheToFile env.cache htmlDirName (htmlFileName a) ⟨page, true⟩ rnd now noFaults 0 fs).fs := by
  have ht := onlyBook_temp hd h (a := a) hr
  have hk := html_key hd a
  have hres := C05_small_file_is_stored_partial env.cache htmlDirName (htmlFileName a) ⟨page, true⟩ rnd now 0 fs hw hk hr h.1 rfl ht.2 (by rw [ht.1]; simpa using hsize)
  refine ⟨hres, ?_⟩
  have e := C01_write_success env.cache htmlDirName (htmlFileName a) ⟨page, true⟩ rnd now noFaults 0 fs hw hk hr h.1 _ hres
  rcases write_state (ff := noFaults) (reader := ⟨page, true⟩) (now := now) hk hr hw h.1 0 with hm | hdn
  · obtain ⟨m1, -, m3⟩ := mid_facts hk hr h.1 hm
    refine ⟨m1, fun p hp => ?_⟩
    by_cases hpt : p = tempFilepath env.cache (htmlFileName a) rnd
    · exact absurd (hpt ▸ e.2.2.2) hp
    · rcases m3 p hpt with h3 | h3
      · exact h.2 p (h3 ▸ hp)
      · exact absurd h3.1 hp
  · obtain ⟨m1, -, m2, -, m3⟩ := done_facts hk hr h.1 hdn
    refine ⟨m1, fun p hp => ?_⟩
    by_cases hpt : p = tempFilepath env.cache (htmlFileName a) rnd
    · exact absurd (hpt ▸ m2) hp
    · by_cases hpo : p = getFilePathInCache env.cache.cacheDir htmlDirName (htmlFileName a)
      · exact ⟨a, hpo⟩
      · rcases m3 p hpt hpo with h3 | h3
        · exact h.2 p (h3 ▸ hp)
        · exact absurd h3.1 hp

theorem cacheHistory_trans {e : CacheEnv} {f g h : FS} (h1 : CacheHistory e f g) (h2 : CacheHistory e g h) : CacheHistory e f h := by
  induction h2 with
  | refl => exact h1
  | step _ hs ih => exact .step ih hs

/-- The first worker deals with all articles. -/
theorem serve_articles (hw : WalkOk env.cache) (hd : UsableCacheDir env.cache) (pages : Str → Str) {rnd : Str} (hr : Digits rnd) (k : Nat) (l : List Str)
    (hpages : ∀ a ∈ l, PageOf env a (pages a) ∧ 2 * ((pages a).length : Int) < env.cache.maxSize) (b : Book)
    (h1 : b.pool.status = .running) (h2 : b.pool.toSend = l) (h3 : b.pool.chan = []) (h4 : b.pool.workers = List.replicate (k + 1) .idle)
    (h5 : OnlyBook env b.fs) (h6 : b.pool.closed = false) :
    ∃ c, BookRun env (ValidCall env.cache) articles (k + 1) b c ∧ CacheHistory env.cache b.fs c.fs ∧ c.pool.status = .running ∧
      c.pool.toSend = [] ∧ c.pool.chan = [] ∧ c.pool.workers = List.replicate (k + 1) .idle ∧ OnlyBook env c.fs ∧ c.pool.closed = false := by
  induction l generalizing b with
  | nil => exact ⟨b, .refl _, .refl _, h1, h2, h3, h4, h5, h6⟩
  | cons a t ih =>
    have hp := hpages a (by simp)
    obtain ⟨e1, e2⟩ := small_page hw hd h5 (a := a) hr hp.2 0
    have s1 : BookStep env (ValidCall env.cache) articles (k + 1) b { b with pool := { b.pool with toSend := t, chan := b.pool.chan ++ [a] } } :=
      .pool (.send h1 h2 (by rw [h3]; simp))
    have s2 := BookStep.pool (env := env) (Allowed := ValidCall env.cache) (articles := articles) (threads := k + 1)
      (b := { b with pool := { b.pool with toSend := t, chan := b.pool.chan ++ [a] } })
      (.take (i := 0) (a := a) (t := []) h1 (by show b.pool.workers[0]? = _; rw [h4]; simp [List.replicate_succ]) (by show b.pool.chan ++ [a] = _; rw [h3]; rfl))
    have s3 := BookStep.generate (env := env) (Allowed := ValidCall env.cache) (articles := articles) (threads := k + 1)
      (b := { b with pool := { b.pool with toSend := t, chan := [], workers := b.pool.workers.set 0 (.busy a) } })
      (i := 0) (a := a) (page := pages a) (rnd := rnd) (now := 0) (faults := noFaults) h1
      (by show (b.pool.workers.set 0 (.busy a))[0]? = _; rw [h4]; simp [List.replicate_succ]) hp.1 ⟨html_key hd a, hr⟩ e1
    obtain ⟨c, c1, c2, c3⟩ := ih (fun x hx => hpages x (List.mem_cons_of_mem _ hx))
      ⟨({ b.pool with toSend := t, chan := [], workers := b.pool.workers.set 0 (.busy a) } : Pool).store articles 0 a (bookFile env a),
        (cacheToFile env.cache htmlDirName (htmlFileName a) ⟨pages a, true⟩ rnd 0 noFaults 0 b.fs).fs⟩ h1 rfl rfl
      (by show (b.pool.workers.set 0 (.busy a)).set 0 .idle = _; rw [h4]; simp [List.replicate_succ]) e2 h6
    refine ⟨c, bookRun_trans (((BookRun.refl b).step s1).step s2 |>.step s3) c1, ?_, c3⟩
    exact cacheHistory_trans (.step (.refl _) (.write (html_key hd a) hr)) c2

/-- The workers end one after the other. -/
theorem exit_all (n m : Nat) (b : Book) (h1 : b.pool.status = .running) (h2 : b.pool.chan = []) (h3 : b.pool.closed = true)
    (h4 : b.pool.workers = List.replicate m .done ++ List.replicate n .idle) :
    ∃ c, BookRun env (ValidCall env.cache) articles threads b c ∧ c.fs = b.fs ∧ c.pool.status = .finished := by
  induction n generalizing m b with
  | zero =>
    refine ⟨_, (BookRun.refl b).step (.pool (.wait h1 h3 fun x hx => ?_)), rfl, rfl⟩
    rw [h4] at hx
    simpa using (List.mem_append.mp hx).elim List.eq_of_mem_replicate (by simp)
  | succ n ih =>
    have s1 := BookStep.pool (env := env) (Allowed := ValidCall env.cache) (articles := articles) (threads := threads) (b := b)
      (.exit (i := m) h1 (by rw [h4]; simp [List.replicate_succ]) h3 h2)
    obtain ⟨c, c1, c2⟩ := ih (m + 1) { b with pool := { b.pool with workers := b.pool.workers.set m .done } } h1 h2 h3 (by
      show b.pool.workers.set m .done = _
      rw [h4, List.replicate_succ, List.set_append_right _ _ (by simp), List.replicate_succ']
      simp)
    exact ⟨c, bookRun_trans ((BookRun.refl b).step s1) c1, c2⟩

/-- **C67** (existence) With an empty cache and pages that are smaller than half of the limit there is an execution that generates
the book, with every eviction strategy and every number of threads. -/
theorem C67_books_can_be_generated (env : BookEnv) (articles : List Str) (k : Nat) (hw : WalkOk env.cache) (hd : UsableCacheDir env.cache)
    (pages : Str → Str) (hpages : ∀ a ∈ articles, PageOf env a (pages a) ∧ 2 * ((pages a).length : Int) < env.cache.maxSize) :
    ∃ b, BookRun env (ValidCall env.cache) articles (k + 1) (Book.start articles (k + 1) []) b ∧ b.pool.status = .finished ∧
      b.fs.WF ∧ CacheHistory env.cache [] b.fs := by
  obtain ⟨c, c1, c2, c3, c4, c5, c6, c7, c8⟩ := serve_articles (articles := articles) hw hd pages (rnd := b!"1") ⟨by simp, by decide⟩ k articles hpages
    (Book.start articles (k + 1) []) rfl rfl rfl rfl ⟨List.nodup_nil, fun p hp => absurd rfl hp⟩ rfl
  obtain ⟨d, d1, d2, d3⟩ := exit_all (env := env) (articles := articles) (threads := k + 1) (k + 1) 0 { c with pool := { c.pool with closed := true } }
    c3 c5 rfl (by simpa using c6)
  refine ⟨d, bookRun_trans (c1.step (.pool (.close c3 c4 c8))) d1, d3, ?_, ?_⟩
  · rw [d2]; exact c7.1
  · rw [d2]; exact c2

/-! ## Eviction -/

theorem pages_fit {fs : FS} (hd : UsableCacheDir env.cache) (hwf : fs.WF) {l : List Str} (hl : l.Nodup) (pages : Str → Str)
    (h : ∀ a ∈ l, ∃ f, fs.get (bookFile env a) = some f ∧ f.content = pages a) :
    ((l.map fun a => (pages a).length).sum : Int) ≤ entriesSize env.cache.cacheDir fs := by
  induction l generalizing fs with
  | nil => exact entriesSize_nonneg _ _
  | cons a t ih =>
    obtain ⟨f, hf, hc⟩ := h a (by simp)
    rw [List.nodup_cons] at hl
    have := ih (fs := fs.erase (bookFile env a)) (WF_erase hwf _) hl.2 (fun x hx => by
      obtain ⟨g, hg, hgc⟩ := h x (List.mem_cons_of_mem _ hx)
      refine ⟨g, ?_, hgc⟩
      rw [get_erase_ne (show bookFile env x ≠ bookFile env a from fun e => hl.1 (bookFile_inj hd e ▸ hx))]
      exact hg)
    have e : entriesSize env.cache.cacheDir (fs.erase (bookFile env a)) = entriesSize env.cache.cacheDir fs - f.size := by
      unfold entriesSize entries
      rw [totalSize_erase hwf hf (fun x => visited env.cache.cacheDir b!".tmp" x)]
      have := visited_out (html_key (env := env) hd a)
      simp only [bookFile]
      simp only [htmlDirName, htmlFileName] at this
      simp [this]
    have hsz : f.size = ((pages a).length : Int) := by rw [← hc]; rfl
    simp only [List.map_cons, List.sum_cons] at this ⊢
    omega

/-- **C67** (the claim is false of the code with an eviction strategy) Whenever the pages together reach the limit of the cache while
each of them is smaller than half of it, there is an execution that ends with the generation of the book although the file
of some article does not have its page any more. -/
theorem C67_eviction_loses_pages (env : BookEnv) (articles : List Str) (k : Nat) (hw : WalkOk env.cache) (hd : UsableCacheDir env.cache)
    (hs : env.cache.strategy ≠ .none) (hnd : articles.Nodup) (hre : Regenerates env articles) (pages : Str → Str)
    (hpages : ∀ a ∈ articles, PageOf env a (pages a) ∧ 2 * ((pages a).length : Int) < env.cache.maxSize)
    (hsum : env.cache.maxSize ≤ ((articles.map fun a => (pages a).length).sum : Int)) (hpos : 0 < env.cache.maxSize) :
    ∃ b, BookRun env (ValidCall env.cache) articles (k + 1) (Book.start articles (k + 1) []) b ∧ b.pool.status = .finished ∧
      b.pool.slots = articles.map (bookFile env) ∧
      ∃ a ∈ articles, ¬ ∃ f, b.fs.get (bookFile env a) = some f ∧ f.content = pages a := by
  obtain ⟨b, h1, h2, h3, h4⟩ := C67_books_can_be_generated env articles k hw hd pages hpages
  refine ⟨b, h1, h2, book_slots hw (fs0 := []) List.nodup_nil (by omega) hnd hre h1 h2, ?_⟩
  by_contra hall
  push Not at hall
  have h5 := pages_fit hd h3 hnd pages hall
  have h6 := C02_cache_stays_below_limit env.cache hw hs (fs := []) List.nodup_nil (by simpa [entriesSize, entries, totalSize] using hpos) h4
  omega

/-! ## Examples -/

/-- A wiki in which every article has the text of `exampleArticle`. -/
def exampleBook (st : Strategy) (limit : Int) : BookEnv :=
  ⟨exampleEnv.config, { demoEnv st with maxSize := limit }, exampleEnv, ⟨id, fun _ _ => .err⟩, fun _ l => l, htmlEnv,
    fun _ => .ok (join b!"\n" (documentSource exampleArticle)), fun _ => false⟩

theorem exampleBook_wellFormed (st : Strategy) (limit : Int) (a : Str) : WellFormedArticle (exampleBook st limit) a exampleArticle :=
  ⟨rfl, exampleArticle_ok.2.1, exampleArticle_ok.2.2⟩

/-- The length of the page without the title. -/
def examplePageLength : Nat := (expectedPage (exampleBook .none 0) [] exampleArticle).length

theorem examplePage_length (st : Strategy) (limit : Int) (a : Str) :
    (expectedPage (exampleBook st limit) a exampleArticle).length = examplePageLength + a.length := by
  have : (exampleBook st limit).style = (exampleBook .none 0).style := rfl
  simp only [examplePageLength, expectedPage, List.length_append, this, List.length_nil]
  have : (exampleBook st limit).parser = (exampleBook .none 0).parser ∧ (exampleBook st limit).html = (exampleBook .none 0).html := ⟨rfl, rfl⟩
  rw [this.1, this.2]
  omega

theorem exampleBook_pages (st : Strategy) (limit : Int) (a : Str) : PageOf (exampleBook st limit) a (expectedPage (exampleBook st limit) a exampleArticle) :=
  pageOf_wellFormed exampleArticle_ok.1 (exampleBook_wellFormed st limit a)

/-- The hypotheses of the theorems for a book of three articles and four threads: all pages are in the book. -/
example : ∃ b, BookRun (exampleBook .none 10000000) (ValidCall (exampleBook .none 10000000).cache) [b!"A", b!"B", b!"C"] 4
    (Book.start [b!"A", b!"B", b!"C"] 4 []) b ∧ b.pool.status = .finished ∧ b.pool.slots = [b!"/c/html/A.html", b!"/c/html/B.html", b!"/c/html/C.html"] ∧
    ∀ a ∈ [b!"A", b!"B", b!"C"], ∃ f, b.fs.get (b!"/c/html/" ++ a ++ b!".html") = some f ∧ f.content = expectedPage (exampleBook .none 10000000) a exampleArticle := by
  have hl : examplePageLength < 4000000 := by decide +kernel
  have hw : WalkOk (exampleBook .none 10000000).cache := fun l => List.Perm.refl l
  have hd : UsableCacheDir (exampleBook .none 10000000).cache := by simp only [UsableCacheDir]; decide +kernel
  obtain ⟨b, h1, h2, -, -⟩ := C67_books_can_be_generated (exampleBook .none 10000000) [b!"A", b!"B", b!"C"] 3 hw hd (fun a => expectedPage _ a exampleArticle) (by
    intro a ha
    refine ⟨exampleBook_pages _ _ a, ?_⟩
    rw [examplePage_length]
    have : a.length = 1 := (by decide : ∀ a ∈ [b!"A", b!"B", b!"C"], a.length = 1) a ha
    rw [this]
    show _ < (10000000 : Int)
    omega)
  obtain ⟨h3, h4⟩ := C67_book_has_the_pages_of_all_articles_partial _ _ 4 [] b hw hd rfl List.nodup_nil (by omega) (by decide) (fun a _ => Or.inr rfl) h1 h2
  refine ⟨b, h1, h2, ?_, fun a ha => ?_⟩
  · rw [h3]; decide +kernel
  · have := h4 a ha _ (exampleBook_pages _ _ a)
    have e : bookFile (exampleBook .none 10000000) a = b!"/c/html/" ++ a ++ b!".html" :=
      (by decide +kernel : ∀ a ∈ [b!"A", b!"B", b!"C"], bookFile (exampleBook .none 10000000) a = b!"/c/html/" ++ a ++ b!".html") a ha
    rw [← e]
    exact this

/-- The hypotheses about the configuration in the theorems with pandoc and with the internal driver. -/
example (d : Str) : let c : Config := { exampleEnv.config with str := fun o => if o = .outputDriver then d else exampleEnv.config.str o }
    c.str .outputDriver = d ∧ (c.str .outputType = b!"epub2" ∨ c.str .outputType = b!"epub3") ∧ isAbs (exampleBook .none 10000000).cache.cacheDir = true ∧
    ¬ b!"<h1>" <:+: (exampleBook .none 10000000).style ∧ ¬ b!"</h1>" <:+: expectedBody (exampleBook .none 10000000) exampleArticle := by
  exact ⟨rfl, (by decide +kernel : exampleEnv.config.str .outputType = b!"epub2" ∨ exampleEnv.config.str .outputType = b!"epub3"), by decide +kernel, by decide +kernel, by decide +kernel⟩

/-- The hypotheses of `C67_eviction_loses_pages`: a cache for somewhat more than two pages, a book of three pages. -/
example : ∃ (limit : Int) (b : Book), BookRun (exampleBook .lru limit) (ValidCall (exampleBook .lru limit).cache) [b!"A", b!"B", b!"C"] 1
    (Book.start [b!"A", b!"B", b!"C"] 1 []) b ∧ b.pool.status = .finished ∧
    ∃ a ∈ [b!"A", b!"B", b!"C"], ¬ ∃ f, b.fs.get (bookFile (exampleBook .lru limit) a) = some f ∧ f.content = expectedPage (exampleBook .lru limit) a exampleArticle := by
  refine ⟨2 * (examplePageLength + 1 : Nat) + 1, ?_⟩
  have hw : WalkOk (exampleBook .lru (2 * (examplePageLength + 1 : Nat) + 1)).cache := fun l => List.Perm.refl l
  have hd : UsableCacheDir (exampleBook .lru (2 * (examplePageLength + 1 : Nat) + 1)).cache := by
    show (cleanElems b!"/c").getLast? ≠ some b!".tmp"
    decide +kernel
  obtain ⟨b, h1, h2, -, h3⟩ := C67_eviction_loses_pages (exampleBook .lru (2 * (examplePageLength + 1 : Nat) + 1)) [b!"A", b!"B", b!"C"] 0 hw hd (by decide) (by decide)
    (fun a _ => Or.inr rfl) (fun a => expectedPage _ a exampleArticle) (by
      intro a ha
      refine ⟨exampleBook_pages _ _ a, ?_⟩
      rw [examplePage_length, (by decide : ∀ a ∈ [b!"A", b!"B", b!"C"], a.length = 1) a ha]
      show _ < (2 * (examplePageLength + 1 : Nat) + 1 : Int)
      omega)
    (by
      simp only [List.map_cons, List.map_nil, examplePage_length]
      show (2 * (examplePageLength + 1 : Nat) + 1 : Int) ≤ _
      simp only [List.sum_cons, List.sum_nil, List.length_cons, List.length_nil]
      omega)
    (by show 0 < (2 * (examplePageLength + 1 : Nat) + 1 : Int); omega)
  exact ⟨b, h1, h2, h3⟩

end Verif.Props
