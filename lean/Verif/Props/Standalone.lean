import Verif.Props.AnyCache
import Verif.Props.Tidy
import Verif.Props.Output
import Verif.Lemmas.Standalone

/-!
# The files of the settings (C82) and the book of a single file (C83)
-/

namespace Verif.Props
open Verif.Go Verif.Model Verif.Spec Verif.Lemmas FSl
open scoped List

/-! ## C82 -/

theorem prepare_inv {c : Config} {cwd o out : Str} {d d' : Disk} (h : prepare c cwd o d = (.ok out, d')) :
    ensurePaths c cwd o d = (.ok out, d') ∧ assertFilesAndPathsExist c cwd d' = .ok () := by
  unfold prepare at h
  generalize ensurePaths c cwd o d = r at h
  obtain ⟨r, d1⟩ := r
  cases r with
  | ok out1 =>
    simp only at h
    generalize hr : assertFilesAndPathsExist c cwd d1 = s at h
    cases s <;> simp only [Prod.mk.injEq, Res.ok.injEq, reduceCtorEq, false_and] at h
    obtain ⟨rfl, rfl⟩ := h
    exact ⟨rfl, hr⟩
  | _ => simp at h

theorem ensurePaths_inv {c : Config} {cwd o out : Str} {d d' : Disk} (h : ensurePaths c cwd o d = (.ok out, d')) :
    ∃ d1, ensureOutput (c.str .outputType) cwd o d = (.ok out, d1) ∧
      ensureDirectories cwd (cacheFolderNames.map fun f => pathJoin [c.str .cacheDir, f])
        (removeTree d1 cwd (pathJoin [c.str .cacheDir, b!".tmp"])) = some d' := by
  unfold ensurePaths at h
  generalize ensureOutput (c.str .outputType) cwd o d = r at h
  obtain ⟨r, d1⟩ := r
  cases r with
  | ok out1 =>
    simp only at h
    generalize hr : ensureDirectories cwd _ _ = s at h
    cases s <;> simp only [Prod.mk.injEq, Res.ok.injEq, reduceCtorEq, false_and] at h
    obtain ⟨rfl, rfl⟩ := h
    exact ⟨d1, rfl, hr⟩
  | _ => simp at h

theorem assert_inv {c : Config} {cwd : Str} {d : Disk} (h : assertFilesAndPathsExist c cwd d = .ok ()) :
    ∀ p ∈ settingFiles c, existsOnDisk d cwd p = true := by
  unfold assertFilesAndPathsExist at h
  split at h
  · cases h
  split at h
  · cases h
  split at h
  · cases h
  split at h
  · cases h
  split at h
  · cases h
  rename_i h1 h2 h3 h4
  simp only [settingFiles, List.cons_append, List.nil_append, List.mem_cons]
  rintro p (rfl | rfl | rfl | hp)
  · simpa using h1
  · simpa using h2
  · simpa using h3
  · have : (c.list .fontFiles).all (existsOnDisk d cwd) = true := by simpa only [Bool.not_eq_true, Bool.not_eq_false] using h4
    exact List.all_eq_true.mp this p hp

/-- **C82**: a run only starts its work if all the files that the settings name are there. A file that was missing before is an error, unless
the program has created something at this path itself (its output file, the folders of the cache, and the folders above them). -/
theorem C82_missing_files_are_reported (c : Config) (cwd o out : Str) (d d' : Disk) (hc : isAbs cwd = true) (ho : isAbs o = true)
    (hcache : isAbs (c.str .cacheDir) = true) (h : prepare c cwd o d = (.ok out, d')) (p : Str) (hp : p ∈ settingFiles c)
    (ha : isAbs p = true) :
    d' (elements p) ≠ none ∧ (d (elements p) ≠ none ∨ elements p <+: elements out ∨ InTheWayToTheCache c (elements p)) := by
  obtain ⟨h1, h2⟩ := prepare_inv h
  obtain ⟨d1, h3, h4⟩ := ensurePaths_inv h1
  have h5 := existsOnDisk_abs ha (assert_inv h2 p hp)
  refine ⟨h5, ?_⟩
  rcases ensureDirectories_created h4 h5 with h6 | ⟨f, hf, h6⟩
  · have h7 : d1 (elements p) ≠ none := by
      unfold removeTree at h6
      split at h6
      · exact absurd rfl h6
      · exact h6
    rcases ensureOutput_created hc ho h3 h7 with h8 | h8
    · exact .inl h8
    · exact .inr (.inl h8)
  · obtain ⟨g, hg, rfl⟩ := List.mem_map.mp hf
    rw [cacheFolder_place hcache hg] at h6
    exact .inr (.inr ⟨g, hg, h6⟩)

/-- **C82**: settings whose files are there, or that are not set, are no error. -/
theorem C82_present_files_are_accepted (c : Config) (cwd o out : Str) (d d' : Disk) (hcache : isAbs (c.str .cacheDir) = true)
    (h : ensurePaths c cwd o d = (.ok out, d')) (hp : ∀ p ∈ settingFiles c, p = [] ∨ isAbs p = true ∧ Present d' p) :
    prepare c cwd o d = (.ok out, d') := by
  obtain ⟨d1, h3, h4⟩ := ensurePaths_inv h
  have hdir : d' (elements (c.str .cacheDir)) = some .folder := by
    rw [show cacheFolderNames = b!".tmp" :: cacheFolderNames.tail from rfl, List.map_cons, ensureDirectories] at h4
    have hno : existsOnDisk (removeTree d1 cwd (pathJoin [c.str .cacheDir, b!".tmp"])) cwd (pathJoin [c.str .cacheDir, b!".tmp"]) = false := by
      obtain ⟨a1, a2⟩ := elements_pathJoin hcache (name := b!".tmp") (by decide) (by decide)
      rw [Bool.eq_false_iff]
      intro he
      refine existsOnDisk_abs a1 he ?_
      unfold removeTree
      rw [place_abs a1, if_pos (hasPrefix_iff.mpr (List.prefix_refl _))]
    simp only [hno, Bool.false_eq_true, if_false] at h4
    split at h4
    · cases h4
    · rename_i d2 h5
      refine ensureDirectories_folder h4 (mkdirAll_folder h5 (.inl ?_))
      rw [cacheFolder_place hcache (by decide)]
      exact List.prefix_append _ _
  have hall : ∀ p ∈ settingFiles c, existsOnDisk d' cwd p = true := fun p h => existsOnDisk_present (hp p h)
  have hc : existsOnDisk d' cwd (c.str .cacheDir) = true := existsOnDisk_present (.inr ⟨hcache, .inl hdir⟩)
  have hok : assertFilesAndPathsExist c cwd d' = .ok () := by
    unfold assertFilesAndPathsExist
    have hf : (c.list .fontFiles).all (existsOnDisk d' cwd) = true :=
      List.all_eq_true.mpr fun p h => hall p (by simp [settingFiles, h])
    rw [hc, hall (c.str .styleFile) (by simp [settingFiles]), hall (c.str .coverImage) (by simp [settingFiles]),
      hall (c.str .pandocDataDir) (by simp [settingFiles]), hf]
    rfl
  unfold prepare
  rw [h]
  simp only [hok]

theorem ensureOutput_ok_or_fatal (t cwd o : Str) (d : Disk) : (∃ out, (ensureOutput t cwd o d).1 = .ok out) ∨ (ensureOutput t cwd o d).1 = .fatal := by
  unfold ensureOutput
  simp only
  split
  · split
    · exact .inr rfl
    · split
      · exact .inr rfl
      · exact .inl ⟨_, rfl⟩
  · exact .inl ⟨_, rfl⟩

/-- The preparation succeeds or ends the program. -/
theorem prepare_ok_or_fatal (c : Config) (cwd o : Str) (d : Disk) : (∃ out, (prepare c cwd o d).1 = .ok out) ∨ (prepare c cwd o d).1 = .fatal := by
  have h : (∃ out, (ensurePaths c cwd o d).1 = .ok out) ∨ (ensurePaths c cwd o d).1 = .fatal := by
    have h := ensureOutput_ok_or_fatal (c.str .outputType) cwd o d
    unfold ensurePaths
    generalize ensureOutput (c.str .outputType) cwd o d = r at h
    obtain ⟨r, d1⟩ := r
    cases r with
    | ok out =>
      simp only
      split
      · exact .inr rfl
      · exact .inl ⟨_, rfl⟩
    | _ => exact h
  unfold prepare
  generalize ensurePaths c cwd o d = r at h
  obtain ⟨r, d1⟩ := r
  cases r with
  | ok out =>
    simp only
    split
    · exact .inl ⟨_, rfl⟩
    · exact .inr rfl
  | _ => exact h

/-- **C82**: if a file of the settings is missing, then nothing is requested and no file of the cache is changed. `rest` is the work of any of
the commands. -/
theorem C82_nothing_is_requested_without_the_files {α : Type} (c : Config) (cwd o : Str) (d : Disk) (hc : isAbs cwd = true) (ho : isAbs o = true)
    (hcache : isAbs (c.str .cacheDir) = true) (p : Str) (hp : p ∈ settingFiles c) (ha : isAbs p = true) (hmissing : d (elements p) = none)
    (hown : ∀ out, (prepare c cwd o d).1 = .ok out → ¬ elements p <+: elements out) (hcf : ¬ InTheWayToTheCache c (elements p))
    (rest : Str → Disk → Model.Run α) (e : WebEnv) (w : World) :
    Run.prepared (prepare c cwd o d) rest e w = some (.fatal, w) := by
  have h1 := C82_missing_files_are_reported c cwd o
  have h2 := prepare_ok_or_fatal c cwd o d
  generalize hr : prepare c cwd o d = r at hown h2
  obtain ⟨r, d'⟩ := r
  rcases h2 with ⟨out, h2⟩ | h2
  · simp only at h2
    subst h2
    exfalso
    rcases (h1 out d d' hc ho hcache hr p hp ha).2 with h | h | h
    · exact h hmissing
    · exact hown out rfl h
    · exact hcf h
  · simp only at h2
    subst h2
    rfl

/-! ## C83 -/

/-- The title of a file is its name without the extension, if there is no dot in the name. -/
theorem title_of_file {file name extension : Str} (h : FileNamed file name extension) (hn : (0x2E : Byte) ∉ name) : standaloneTitle file = name := by
  obtain ⟨⟨folder, rfl, hf⟩, hs, -⟩ := h
  have hrest : sepB ∉ name ++ b!"." ++ extension := by
    simp only [List.mem_append, not_or]
    exact ⟨⟨hs.1, by decide⟩, hs.2⟩
  have hsplit : splitDir (folder ++ name ++ b!"." ++ extension) = folder := by
    unfold splitDir
    have e : (folder ++ name ++ b!"." ++ extension).reverse = (name ++ b!"." ++ extension).reverse ++ folder.reverse := by
      rw [← List.reverse_append]
      simp only [List.append_assoc]
    rw [e, List.dropWhile_append_of_pos (fun x hx => by
      have : x ≠ sepB := fun h => hrest (h ▸ List.mem_reverse.mp hx)
      simpa using this)]
    rcases hf with rfl | ⟨t, rfl⟩
    · rfl
    · rw [List.reverse_append]
      show (List.dropWhile (fun x => decide (x ≠ sepB)) (sepB :: t.reverse)).reverse = _
      rw [List.dropWhile_cons_of_neg (by simp)]
      rw [List.reverse_cons, List.reverse_reverse]
  unfold standaloneTitle
  rw [hsplit]
  have e : (folder ++ name ++ b!"." ++ extension).drop folder.length = name ++ (0x2E : Byte) :: extension := by
    rw [List.append_assoc, List.append_assoc, List.drop_left]
    rfl
  rw [e, split_singleton_append extension hn]
  rfl

/-- A run over the text of a file that has made a page: if the given answers are the only ones it can have used, the page is the one of these. -/
theorem file_any (env : ParserEnv) (c : WikiConf) (hs : SumsUsable c) (decode : Str → Option SvgAttributes) (t : TemplateEnv) (hh : t.hash = c.sha1hex)
    (iterate : Nat → List (Str × Str) → List (Str × Str)) (fuel : Nat) (style title content : Str) (e : WebEnv) (hu : AnyCache e) (w w' : World)
    (hwf : w.fs.WF) (page : Option Str)
    (hrun : standalonePage env c decode e.cache.cacheDir iterate fuel style title content true e w = some (.ok page, w')) :
    ∃ text s w2, tokenizeRun env c iterate fuel content e w = some (.ok (text, s), w2) ∧ w'.fs.WF ∧
      ((∀ request, t.evaluate request (c.sha1hex request) = .err ∨ ∀ request' b, c.sha1hex request' = c.sha1hex request →
        Given e w w2 b!"templates" (c.sha1hex request) (templateUrl c request') b →
        ∃ x, c.decodeTemplate b = some x ∧ t.evaluate request (c.sha1hex request) = .ok x) →
      ∃ p, page = some p ∧ (articleHtml env t iterate ⟨c, fun _ => .err⟩ fuel style title content = some (.ok p) ∨
      articleHtml env t iterate ⟨c, fun _ => .err⟩ fuel style title content = some .err)) := by
  obtain ⟨⟨text, s⟩, w2, g2, hrun⟩ := run_bind_inv hrun
  obtain ⟨u, w3, g3, hrun⟩ := run_bind_inv hrun
  simp only [if_true] at hrun
  obtain ⟨body, w4, g4, hrun⟩ := run_bind_inv hrun
  cases hrun
  have hwf2 : w2.fs.WF := by
    have hk : ∀ request, Traces e (fun w => w.fs.WF) (fun _ => True) (Run.call (evaluateTemplate c request (c.sha1hex request)))
        (some ((⟨c.sha1hex, fun _ _ => .err⟩ : TemplateEnv).evaluate request (c.sha1hex request))) := by
      intro request v x v' hv h
      exact ⟨by have := Tidy.evaluateTemplate c request (c.sha1hex request) e v hv; rwa [Option.some.inj h] at this, fun _ => ⟨trivial, .inr rfl⟩⟩
    exact (traces_tokenize (Q := fun _ => True) env c ⟨c.sha1hex, fun _ _ => .err⟩ rfl hk iterate fuel content w _ w2 hwf g2).1
  have hwf3 : w3.fs.WF := by
    have := Tidy.downloadImages c e.cache.cacheDir s.images e w2 hwf2
    rwa [show downloadImages c e.cache.cacheDir s.images e w2 = (.ok u, w3) from Option.some.inj g3] at this
  have hm : ∀ formula, Traces e (fun v => v.fs.WF) (fun _ => True) (Run.call (mathPicture decode c e.cache.cacheDir formula))
      (some ((⟨c, fun _ => .err⟩ : HtmlEnv).math formula)) := by
    intro formula v x v' hv h
    exact ⟨by have := Tidy.mathPicture decode c e.cache.cacheDir formula e v hv; rwa [Option.some.inj h] at this, fun _ => ⟨trivial, .inr rfl⟩⟩
  obtain ⟨hwf4, hexp⟩ := traces_expand (Q := fun _ => True) c decode e.cache.cacheDir ⟨c, fun _ => .err⟩ rfl hm s.tokenMap fuel text w3 _ w' hwf3 g4
  refine ⟨text, s, w2, g2, hwf4, fun hans => ⟨_, rfl, ?_⟩⟩
  have hexp := (hexp trivial).2
  have hk : ∀ request, Traces e (fun v => v.fs.WF ∧ Told c e w v) (fun v => Talks v w2) (Run.call (evaluateTemplate c request (c.sha1hex request)))
      (some (t.evaluate request (c.sha1hex request))) := by
    rintro request v x v' ⟨hv, hv1⟩ h
    obtain ⟨k1, k2, b, k3, k4⟩ := template_any hu c hs hv (Option.some.inj h)
    refine ⟨⟨k1, hv1.trans k2⟩, fun hq => ⟨k2.1.trans hq, ?_⟩⟩
    rcases hans request with h1 | h1
    · exact .inr (congrArg some h1)
    have : ∃ request', c.sha1hex request' = c.sha1hex request ∧ Given e w w2 b!"templates" (c.sha1hex request) (templateUrl c request') b := by
      rcases k4 with k4 | k4
      · rcases hv1.2 _ (hs.sha1 _) b k4 with k5 | ⟨request', k5, k6⟩
        · exact ⟨request, rfl, .inl k5⟩
        · exact ⟨request', k5, .inr (sent_later k6 hv1.1 (k2.1.trans hq))⟩
      · exact ⟨request, rfl, .inr (sent_earlier hv1.1 (sent_later k4 k2.1 hq))⟩
    obtain ⟨request', k5, k6⟩ := this
    obtain ⟨y, k7, k8⟩ := h1 request' b k5 k6
    rw [k3] at k7
    cases k7
    exact .inl (congrArg some k8)
  have htok := ((traces_tokenize env c t hh hk iterate fuel content w _ w2 ⟨hwf, .refl c e w⟩ g2).2 (.refl _)).2
  unfold articleHtml
  rcases htok with htok | htok
  · rw [htok]
    show (expandString ⟨c, fun _ => .err⟩ s.tokenMap fuel text >>= fun body =>
      (some (.ok (htmlHeader style ++ b!"\n<h1>" ++ title ++ b!"</h1>\n" ++ body ++ htmlFooter)) : ExpM Str) : ExpM Str) = _ ∨
      (expandString ⟨c, fun _ => .err⟩ s.tokenMap fuel text >>= fun body =>
      (some (.ok (htmlHeader style ++ b!"\n<h1>" ++ title ++ b!"</h1>\n" ++ body ++ htmlFooter)) : ExpM Str) : ExpM Str) = _
    rcases hexp with hexp | hexp
    · left
      rw [show expandString ⟨c, fun _ => .err⟩ s.tokenMap fuel text = (some (.ok body) : ExpM Str) from hexp]
      rfl
    · right
      rw [show expandString ⟨c, fun _ => .err⟩ s.tokenMap fuel text = (some .err : ExpM Str) from hexp]
      rfl
  · right
    rw [htok]

/-- The path of an earlier page. -/
theorem earlierPage_eq {name : Str} (hn : sepB ∉ name) : earlierPage name = b!"html/" ++ name ++ b!".html" := by
  have hpl : Plain (htmlFileName name) := by
    unfold htmlFileName
    have h5 : 5 ≤ (name ++ b!".html").length := by simp
    refine ⟨?_, ?_, ?_, ?_⟩
    · intro h; rw [h] at h5; simp at h5
    · intro h; rw [h] at h5; simp at h5
    · intro h; rw [h] at h5; simp at h5
    · simp only [List.mem_append, not_or]
      exact ⟨hn, by decide⟩
  unfold earlierPage
  rw [pathJoin_two hpl, show cleanElems htmlDirName = [htmlDirName] from cleanElems_plain (cache_folders_plain _ (by decide))]
  show renderPath false [htmlDirName, htmlFileName name] = _
  simp [renderPath, join, htmlDirName, htmlFileName]

/-- The path at which the page of a file is stored. -/
theorem writeHtml_stored {e : WebEnv} (hu : AnyCache e) {title page file : Str} {w w' : World} (hwf : w.fs.WF)
    (h : writeHtml title page e w = (.ok file, w')) :
    file = getFilePathInCache e.cache.cacheDir b!"html" (title ++ b!".html") ∧ (w'.fs.get file).map File.content = some page := by
  have hv : ValidKey e.cache htmlDirName (htmlFileName title) := by
    refine ⟨cache_folders_plain _ (by decide), by decide, ?_, hu.dir⟩
    unfold htmlFileName
    have : 5 ≤ (title ++ b!".html").length := by simp
    intro hm
    simp only [List.mem_cons, List.not_mem_nil, or_false] at hm
    rcases hm with hm | hm | hm <;> rw [hm] at this <;> simp at this
  obtain ⟨r4, f4, -⟩ := files_ok_inv h
  obtain ⟨rfl, hd⟩ := sat_ok (cacheToFile_sat (ff := e.faults) (reader := ⟨page, true⟩) (now := e.clock w.ops) hv (hu.digits w.ops) hu.walk hwf)
    w.ops rfl r4
  obtain ⟨-, d2, -⟩ := done_facts hv (hu.digits _) hwf hd
  rw [← f4] at d2
  exact ⟨rfl, by rw [d2]; rfl⟩

theorem prepared_inv {α : Type} {p : Res Str × Disk} {rest : Str → Disk → Model.Run α} {e : WebEnv} {w w' : World} {a : α}
    (h : Run.prepared p rest e w = some (.ok a, w')) : ∃ out d, p = (.ok out, d) ∧ rest out d e w = some (.ok a, w') := by
  obtain ⟨r, d⟩ := p
  cases r with
  | ok out => exact ⟨out, d, rfl, h⟩
  | _ => cases h

theorem bookOf_inv {cfg : Config} {outside : Str → Option Str} {succeeds : List EpubCall → EpubCall → Bool} {file out title : Str}
    {e : WebEnv} {w w' : World} {a : EpubAction} (h : bookOf cfg outside succeeds file out title e w = some (.ok a, w')) :
    w' = w ∧ generateEpub ⟨fun p => ((w'.fs.get p).map File.content).or (outside p), succeeds⟩ cfg [file] out ⟨title, [], [], [], []⟩ = .ok a := by
  unfold bookOf at h
  simp only [Option.some.injEq, Prod.mk.injEq] at h
  obtain ⟨h1, rfl⟩ := h
  refine ⟨rfl, ?_⟩
  generalize generateEpub _ _ _ _ _ = r at h1
  cases r <;> cases h1
  rfl

/-- **C83** (partly): whenever the program has made a book of a file, then this book has one section, and its page is the HTML of the text of
the file, with the name of the file without its extension as heading and as title of the book, and with each template replaced by its answer,
which is one that was in the cache before or that the wiki has sent. This holds for any eviction strategy, sizes, ages and failures of file
operations. It is needed that the file name has no further dot, and that there is no file `html/<name>.html` in the working directory or that
`force-regenerate-html` is set. Missing: texts with formulas, and texts beyond those of C69. -/
theorem C83_book_of_a_file_has_its_text_partial (env : ParserEnv) (hp : PlainPrefixes env) (c : WikiConf) (hs : SumsUsable c)
    (hhex : ∀ t, ∀ b ∈ c.sha1hex t, b ∈ b!"0123456789abcdef") (hdt : c.decodeTemplate = unmarshalTemplate)
    (decode : Str → Option SvgAttributes)
    (iterate : Nat → List (Str × Str) → List (Str × Str)) (hit : ∀ n m, (iterate n m).Perm m)
    (e : WebEnv) (hu : AnyCache e) (w : World) (hwf : w.fs.WF)
    -- the file
    (parts : List SourcePart) (d : TemplateText) (written all lines : List Str) (ha : CleanedArticle env parts d written all lines)
    (outside : Str → Option Str) (inputFile name extension : Str) (hname : FileNamed inputFile name extension) (hdot : (0x2E : Byte) ∉ name)
    (hin : outside inputFile = some (sourceText parts))
    -- its templates
    (text : NestedText) (htext : text.text = join b!"\n" lines) (hw : text.WellFormed [])
    (hinj : ∀ t ∈ text.templates, ∀ t' ∈ text.templates,
      c.sha1hex (t.request c.sha1hex) = c.sha1hex (t'.request c.sha1hex) → t.request c.sha1hex = t'.request c.sha1hex)
    -- the text with the answers, without formulas
    (answer : Str → Str) (parts' : List SourcePart)
    (hx : Resolved (text.templates.map fun t => (c.sha1hex (t.request c.sha1hex), answer (t.request c.sha1hex)))
      (text.holed c.sha1hex) (sourceText parts'))
    (hc : ¬ b!"TEMPLATE_PLACEHOLDER_" <:+: sourceText parts')
    (hw' : ∀ p ∈ parts', p.WellFormed (linkRules env) fun name => IsIgnored env name = true ∧ IsTrailing env name = false)
    (hpl : WellPlaced parts') (doc : List (Nat × DocBlock)) (h : DocOk env doc) (hm : ∀ b ∈ doc, b.2.AllLines (Rendered ⟨c, fun _ => .err⟩))
    (all' : List Str) (ha' : WithEmptySections (HeadingOfArticle env) (documentSource doc) all')
    (written' : List Str) (hl : WrittenLines all' written') (hk : keptText parts' = join b!"\n" written')
    -- the settings and the disk
    (cfg : Config) (hcfg : cfg.str .cacheDir = e.cache.cacheDir) (succeeds : List EpubCall → EpubCall → Bool) (cwd : Str) (flag : Option Str) (disk : Disk)
    (hnew : cfg.bool .forceRegenerateHtml = true ∨
      ∀ out disk', prepare cfg cwd (outputFlag cwd flag) disk = (.ok out, disk') → statKind disk' cwd (b!"html/" ++ name ++ b!".html") = none)
    -- the run
    (fuel : Nat) (action : EpubAction) (w' : World)
    (hrun : standaloneRun env c decode cfg iterate fuel outside succeeds cwd inputFile flag disk e w = some (.ok action, w'))
    (hgiven : ∀ content s w1, tokenizeRun env c iterate fuel (sourceText parts) e w = some (.ok (content, s), w1) →
      ∀ t ∈ text.templates, ∀ t', c.sha1hex t' = c.sha1hex (t.request c.sha1hex) →
        ∀ bytes, Given e w w1 b!"templates" (c.sha1hex (t.request c.sha1hex)) (templateUrl c t') bytes →
          ∃ json, JsonText json bytes ∧ nesting json ≤ 10000 ∧ TemplateAnswer (answer (t.request c.sha1hex)) json) :
    ∃ out disk' file, prepare cfg cwd (outputFlag cwd flag) disk = (.ok out, disk') ∧
      (w'.fs.get file).map File.content = some (htmlHeader (toRelativePathWithBasedir (cfg.str .cacheDir) (cfg.str .styleFile)) ++
        b!"\n<h1>" ++ name ++ b!"</h1>\n" ++
        join b!"\n" (documentHtml ⟨ArticleImage.html env (imageSource ⟨c, fun _ => .err⟩), formulaPicture ⟨c, fun _ => .err⟩⟩ false doc) ++
          htmlFooter) ∧
      generateEpub ⟨fun p => ((w'.fs.get p).map File.content).or (outside p), succeeds⟩ cfg [file] out ⟨name, [], [], [], []⟩ = .ok action := by
  unfold standaloneRun at hrun
  rw [hin, title_of_file hname hdot] at hrun
  obtain ⟨out, disk', hprep, hrun⟩ := prepared_inv hrun
  obtain ⟨file, w2, g1, hrun⟩ := run_bind_inv hrun
  obtain ⟨rfl, hbook⟩ := bookOf_inv hrun
  refine ⟨out, disk', file, hprep, ?_, hbook⟩
  have hrec : recreates cfg cwd disk' (earlierPage name) = true := by
    unfold recreates
    rcases hnew with hnew | hnew
    · simp [hnew]
    · rw [earlierPage_eq hname.slash.1, hnew out disk' hprep]
      simp
  rw [hrec] at g1
  obtain ⟨page, w3, g2, g3⟩ := run_bind_inv g1
  rw [hcfg] at g2
  obtain ⟨content0, s, w2, g0, hwf3, g5⟩ := file_any env c hs decode (givenAnswers c text answer) rfl iterate fuel _ name (sourceText parts)
    e hu w w3 hwf page g2
  have hev : ∀ t ∈ text.templates, (givenAnswers c text answer).evaluate (t.request c.sha1hex) (c.sha1hex (t.request c.sha1hex)) =
      .ok (answer (t.request c.sha1hex)) := fun t ht => if_pos (List.mem_map.mpr ⟨t, ht, rfl⟩)
  obtain ⟨page, rfl, g4⟩ := g5 (fun request => by
    by_cases hr : request ∈ text.templates.map (fun t => t.request c.sha1hex)
    · obtain ⟨t, ht, rfl⟩ := List.mem_map.mp hr
      refine .inr fun request' b h1 h2 => ?_
      obtain ⟨j, b2, b3, b4⟩ := hgiven _ _ _ g0 t ht request' h1 b h2
      exact ⟨_, by rw [hdt]; exact unmarshalTemplate_answer b2 b3 b4, hev t ht⟩
    · exact .inl (if_neg hr))
  obtain ⟨rfl, hpage⟩ := writeHtml_stored hu hwf3 (Option.some.inj g3)
  rw [hpage]
  obtain ⟨steps, hsteps⟩ := C69_templates_become_their_answers_partial env hp (givenAnswers c text answer) hhex iterate hit ⟨c, fun _ => .err⟩
    (toRelativePathWithBasedir (cfg.str .cacheDir) (cfg.str .styleFile)) name
    parts d written all lines ha text htext hw hinj answer hev parts' hx hc hw' hpl doc h hm all' ha' written' hl hk
  rw [hcfg] at hsteps ⊢
  have h1 := hsteps (fuel + steps) (by omega)
  rcases g4 with g4 | g4
  · rw [(later_articleHtml env _ iterate _ fuel (fuel + steps) (by omega) _ _ _).eq_some g4] at h1
    exact congrArg some (Res.ok.inj (Option.some.inj h1))
  · rw [(later_articleHtml env _ iterate _ fuel (fuel + steps) (by omega) _ _ _).eq_some g4] at h1
    cases h1

/-- **C83** fails: the heading of the page is not always the name of the file. -/
theorem C83_names_with_dots_are_cut : standaloneTitle b!"texts/Dr. No.mediawiki" = b!"Dr" ∧ FileNamed b!"texts/Dr. No.mediawiki" b!"Dr. No" b!"mediawiki" := by
  refine ⟨by decide +kernel, ⟨⟨b!"texts/", by decide, .inr ⟨b!"texts", by decide⟩⟩, by decide, by decide⟩⟩

/-- **C83** fails: if there is a file `html/<name>.html` in the working directory, then the book is made of it, whatever the text of the given
file is. -/
theorem C83_earlier_page_is_used_instead (env : ParserEnv) (c : WikiConf) (decode : Str → Option SvgAttributes) (cfg : Config)
    (iterate : Nat → List (Str × Str) → List (Str × Str)) (fuel : Nat) (outside : Str → Option Str) (succeeds : List EpubCall → EpubCall → Bool)
    (cwd inputFile name extension : Str) (flag : Option Str) (disk : Disk) (hname : FileNamed inputFile name extension) (hdot : (0x2E : Byte) ∉ name)
    (hforce : cfg.bool .forceRegenerateHtml = false) (hepub : cfg.str .outputType = b!"epub2" ∨ cfg.str .outputType = b!"epub3")
    (hthere : ∀ out disk', prepare cfg cwd (outputFlag cwd flag) disk = (.ok out, disk') →
      statKind disk' cwd (b!"html/" ++ name ++ b!".html") ≠ none)
    (e : WebEnv) (w w' : World) (action : EpubAction)
    (hrun : standaloneRun env c decode cfg iterate fuel outside succeeds cwd inputFile flag disk e w = some (.ok action, w')) :
    ∃ out, generateEpub ⟨fun p => ((w'.fs.get p).map File.content).or (outside p), succeeds⟩ cfg [b!"html/" ++ name ++ b!".html"] out
      ⟨name, [], [], [], []⟩ = .ok action := by
  unfold standaloneRun at hrun
  rw [title_of_file hname hdot] at hrun
  generalize outside inputFile = o at hrun
  cases o with
  | none => cases hrun
  | some content =>
  obtain ⟨out, disk', hprep, hrun⟩ := prepared_inv hrun
  obtain ⟨file, w2, g1, hrun⟩ := run_bind_inv hrun
  obtain ⟨rfl, hbook⟩ := bookOf_inv hrun
  have hrec : recreates cfg cwd disk' (earlierPage name) = false := by
    unfold recreates
    rw [earlierPage_eq hname.slash.1, hforce]
    have := hthere out disk' hprep
    generalize statKind _ _ _ = k at this
    cases k with
    | none => exact absurd rfl this
    | some k => rcases hepub with h | h <;> rw [h] <;> rfl
  rw [hrec] at g1
  obtain ⟨page, w3, g2, g3⟩ := run_bind_inv g1
  obtain ⟨⟨text, s⟩, w4, -, g2⟩ := run_bind_inv g2
  obtain ⟨u, w5, -, g2⟩ := run_bind_inv g2
  simp only [Bool.false_eq_true, if_false] at g2
  cases g2
  cases g3
  rw [earlierPage_eq hname.slash.1] at hbook
  exact ⟨out, hbook⟩

/-- **C83** fails: there are no statistics of a file, the run always ends with an error. -/
theorem C83_no_statistics_of_a_file (env : ParserEnv) (c : WikiConf) (decode : Str → Option SvgAttributes) (cfg : Config)
    (iterate : Nat → List (Str × Str) → List (Str × Str)) (fuel : Nat) (outside : Str → Option Str) (succeeds : List EpubCall → EpubCall → Bool)
    (cwd inputFile : Str) (flag : Option Str) (disk : Disk) (hstats : cfg.str .outputType = b!"stats-json" ∨ cfg.str .outputType = b!"stats-txt")
    (e : WebEnv) (w w' : World) (action : EpubAction) :
    standaloneRun env c decode cfg iterate fuel outside succeeds cwd inputFile flag disk e w ≠ some (.ok action, w') := by
  intro hrun
  unfold standaloneRun at hrun
  generalize outside inputFile = o at hrun
  cases o with
  | none => cases hrun
  | some content =>
  obtain ⟨out, disk', hprep, hrun⟩ := prepared_inv hrun
  obtain ⟨file, w2, g1, hrun⟩ := run_bind_inv hrun
  obtain ⟨rfl, hbook⟩ := bookOf_inv hrun
  unfold generateEpub at hbook
  rw [if_pos (by rcases hstats with h | h <;> rw [h] <;> decide)] at hbook
  cases hbook

/-! ### Examples -/

/-- Settings with a style file and a font. -/
def noteConfig : Config where
  str
    | .cacheDir => b!"/c"
    | .styleFile => b!"/w/s.css"
    | .coverImage => []
    | .pandocDataDir => []
    | .outputType => b!"epub2"
    | .outputDriver => b!"pandoc"
    | .pandocExecutable => b!"pandoc"
    | o => exampleEnv.config.str o
  list
    | .fontFiles => [b!"/w/f.ttf"]
    | o => exampleEnv.config.list o
  int := exampleEnv.config.int
  bool := fun _ => false

def noteDisk : Disk := fun q =>
  if q ∈ [[], [b!"w"]] then some .folder
  else if q ∈ [[b!"w", b!"s.css"], [b!"w", b!"f.ttf"], [b!"w", b!"A b.mediawiki"]] then some .file
  else none

/-- A disk without the font. -/
def fontlessDisk : Disk := fun q => if q = [b!"w", b!"f.ttf"] then none else noteDisk q

/-- The files are there: the preparation succeeds, and the hypotheses of the theorems about it are met. -/
example : (∃ d', prepare noteConfig b!"/w" b!"/w/ebook.epub" noteDisk = (.ok b!"/w/ebook.epub", d')) ∧
    isAbs b!"/w" = true ∧ isAbs (noteConfig.str .cacheDir) = true ∧ b!"/w/f.ttf" ∈ settingFiles noteConfig := by
  refine ⟨?_, by decide, by decide, by decide⟩
  have h : (prepare noteConfig b!"/w" b!"/w/ebook.epub" noteDisk).1 = .ok b!"/w/ebook.epub" := by decide +kernel
  exact ⟨(prepare noteConfig b!"/w" b!"/w/ebook.epub" noteDisk).2, by rw [← h]⟩

example : prepare noteConfig b!"/w" b!"/w/ebook.epub" noteDisk =
    (.ok b!"/w/ebook.epub", (ensurePaths noteConfig b!"/w" b!"/w/ebook.epub" noteDisk).2) := by
  have h : (ensurePaths noteConfig b!"/w" b!"/w/ebook.epub" noteDisk).1 = .ok b!"/w/ebook.epub" := by decide +kernel
  refine C82_present_files_are_accepted noteConfig b!"/w" b!"/w/ebook.epub" _ noteDisk _ (by decide) (by rw [← h]) ?_
  intro p hp
  simp only [settingFiles, List.cons_append, List.nil_append, List.mem_cons, noteConfig, List.not_mem_nil, or_false] at hp
  rcases hp with rfl | rfl | rfl | rfl
  · exact .inr ⟨by decide, .inr ⟨by decide +kernel, by unfold NamesFile; decide +kernel⟩⟩
  · exact .inl rfl
  · exact .inl rfl
  · exact .inr ⟨by decide, .inr ⟨by decide +kernel, by unfold NamesFile; decide +kernel⟩⟩

/-- Without the font the run ends before it does anything, also if it is one that downloads an article. -/
example (e : WebEnv) (w : World) : Run.prepared (prepare noteConfig b!"/w" b!"/w/ebook.epub" fontlessDisk)
    (fun _ _ => articleRun exampleEnv walkConf demoDecode b!"/c" (fun _ l => l) 100 b!"s.css" b!"A b") e w = some (.fatal, w) := by
  refine C82_nothing_is_requested_without_the_files noteConfig b!"/w" b!"/w/ebook.epub" fontlessDisk (by decide) (by decide) (by decide) b!"/w/f.ttf"
    (by decide) (by decide) (by decide +kernel) ?_ ?_ _ e w
  · intro out h
    have : (prepare noteConfig b!"/w" b!"/w/ebook.epub" fontlessDisk).1 = .fatal := by decide +kernel
    rw [this] at h
    cases h
  · have : ∀ f ∈ cacheFolderNames, ¬ elements b!"/w/f.ttf" <+: elements (noteConfig.str .cacheDir) ++ [f] := by decide +kernel
    rintro ⟨f, hf, h⟩
    exact this f hf h

/-- A cache of 530 bytes with the strategy `lru`. -/
def noteEnv : WebEnv := { tightEnv with cache := ⟨b!"/c", 530, 60, .lru, id⟩, faults := fun k => k = 309 }

theorem noteEnv_usable : AnyCache noteEnv where
  dir := by decide
  walk := fun _ => List.Perm.refl _
  digits _ := ⟨show b!"123" ≠ [] by decide, show ∀ c ∈ b!"123", 48 ≤ c ∧ c ≤ 57 by decide⟩

/-- The wiki has only the answer for the template. -/
def noteWorld : World := ⟨[], 0, [], [answer 200 [] [] walkTemplateText]⟩

def noteFiles : Str → Option Str := fun p => if p = b!"/w/A b.mediawiki" then some b!"Walk {{n}} km." else none

def noteRun : Option (Outcome EpubAction × World) := standaloneRun exampleEnv walkConf demoDecode noteConfig (fun _ l => l) 100 noteFiles
  (fun _ _ => true) b!"/w" b!"/w/A b.mediawiki" none noteDisk noteEnv noteWorld

/-- The book is made; the answer for the template has been evicted. -/
theorem noteRun_result : (noteRun.map fun r => (match r.1 with | .ok _ => true | _ => false, r.2.fs.map Prod.fst, r.2.events)) =
    some (true, [b!"/c/html/A b.html"], [.request b!"GET" (templateUrl walkConf b!"{{n}}") []]) := by decide +kernel

def noteParse : Option (Outcome (Str × TokState) × World) := tokenizeRun exampleEnv walkConf (fun _ l => l) 100 b!"Walk {{n}} km." noteEnv noteWorld

theorem noteParse_events : noteParse.map (fun r => r.2.events) = some [.request b!"GET" (templateUrl walkConf b!"{{n}}") []] := by decide +kernel

theorem note_sent {content : Str} {s : TokState} {w1 : World} (h : noteParse = some (.ok (content, s), w1)) {url bytes : Str}
    (hs : Sent noteWorld w1 url bytes) : bytes = walkTemplateText := by
  obtain ⟨new, r, e1, e2, -, -, rfl⟩ := hs
  have h2 := noteParse_events
  rw [h, Option.map_some, Option.some.injEq, e1] at h2
  have h3 : new = [.request b!"GET" (templateUrl walkConf b!"{{n}}") []] := h2
  rw [h3] at e2
  simp only [exchanges, noteWorld, List.mem_cons, List.not_mem_nil, or_false, Prod.mk.injEq, Event.request.injEq, answer, Answer.response.injEq] at e2
  obtain ⟨-, rfl⟩ := e2
  rfl

attribute [local irreducible] noteParse noteRun in
/-- All hypotheses are met by a run with a request and an eviction: the page of the book is that of the text. -/
example : (∃ action w', noteRun = some (.ok action, w')) ∧ ∀ action w', noteRun = some (.ok action, w') →
    ∃ file, (w'.fs.get file).map File.content = some (htmlHeader b!"../w/s.css" ++ b!"\n<h1>A b</h1>\nWalk 3 km." ++ htmlFooter) := by
  refine ⟨?_, fun action w' h => ?_⟩
  · have h := noteRun_result
    generalize noteRun = r at h
    match r, h with
    | some (.ok a, w), _ => exact ⟨a, w, rfl⟩
  have hempty : ∀ folder name, cachedBytes noteEnv.cache.cacheDir noteWorld.fs folder name = none := fun _ _ => rfl
  have h : standaloneRun exampleEnv walkConf demoDecode noteConfig (fun _ l => l) 100 noteFiles
    (fun _ _ => true) b!"/w" b!"/w/A b.mediawiki" none noteDisk noteEnv noteWorld = some (.ok action, w') := by
    rw [← h]
    unfold noteRun
    rfl
  have hnew : ∀ out disk', prepare noteConfig b!"/w" (outputFlag b!"/w" none) noteDisk = (.ok out, disk') →
      statKind disk' b!"/w" (b!"html/" ++ b!"A b" ++ b!".html") = none := by
    intro out disk' hp
    have h0 : statKind (prepare noteConfig b!"/w" (outputFlag b!"/w" none) noteDisk).2 b!"/w" (b!"html/" ++ b!"A b" ++ b!".html") = none := by
      decide +kernel
    rw [hp] at h0
    exact h0
  have hgiv : ∀ content s w1, tokenizeRun exampleEnv walkConf (fun _ l => l) 100 b!"Walk {{n}} km." noteEnv noteWorld = some (.ok (content, s), w1) →
      ∀ t ∈ walkNested.templates, ∀ t', walkConf.sha1hex t' = walkConf.sha1hex (t.request walkConf.sha1hex) →
        ∀ bytes, Given noteEnv noteWorld w1 b!"templates" (walkConf.sha1hex (t.request walkConf.sha1hex)) (templateUrl walkConf t') bytes →
          ∃ json, JsonText json bytes ∧ nesting json ≤ 10000 ∧ TemplateAnswer b!"3" json := by
    intro content s w1 h1 t _ t' _ bytes hg
    have hp : noteParse = some (.ok (content, s), w1) := by
      unfold noteParse
      exact h1
    rcases hg with hg | hg
    · rw [hempty] at hg; cases hg
    · rw [note_sent hp hg]
      exact ⟨_, walk_template_json, by decide, walk_template_answer⟩
  obtain ⟨out, disk', file, -, hpage, -⟩ := C83_book_of_a_file_has_its_text_partial exampleEnv exampleEnv_plain walkConf walk_sums
    (fun _ => show ∀ b ∈ b!"cd", _ by decide) rfl demoDecode (fun _ l => l) (fun _ _ => List.Perm.refl _) noteEnv
    noteEnv_usable noteWorld (by simp [FS.WF, noteWorld]) [.shown b!"Walk {{n}} km."] walkSource
    walkLines walkLines walkLines walk_cleaned noteFiles b!"/w/A b.mediawiki" b!"A b" b!"mediawiki"
    ⟨⟨b!"/w/", by decide, .inr ⟨b!"/w", by decide⟩⟩, by decide, by decide⟩ (by decide) (by decide +kernel)
    walkNested (by decide +kernel) walkNested_ok walk_one (fun _ => b!"3") [.shown b!"Walk 3 km."] walk_resolved
    (by decide +kernel) (by simp [SourcePart.WellFormed]) (placed_of_test (by decide +kernel)) walkDoc walkDoc_ok (walkDoc_rendered _) (documentSource walkDoc)
    (withEmptySections_refl _ _) [b!"Walk 3 km."] walk_written walk_kept noteConfig rfl (fun _ _ => true) b!"/w" none noteDisk
    (.inr hnew) 100 action w' h hgiv
  refine ⟨file, hpage.trans ?_⟩
  rw [show toRelativePathWithBasedir (noteConfig.str .cacheDir) (noteConfig.str .styleFile) = b!"../w/s.css" by decide +kernel]
  rfl

/-- A disk with a page of the same name in the working directory. -/
def pageDisk : Disk := fun q => if q = [b!"w", b!"html"] then some .folder else if q = [b!"w", b!"html", b!"A b.html"] then some .file else noteDisk q

/-- The run with such a disk makes a book, of this page. -/
example : (standaloneRun exampleEnv walkConf demoDecode noteConfig (fun _ l => l) 100 noteFiles (fun _ _ => true) b!"/w" b!"/w/A b.mediawiki" none
      pageDisk noteEnv noteWorld).map (fun r => match r.1 with | .ok (.pandoc _ _ args) => args.getLast? | _ => none) = some (some b!"html/A b.html") ∧
    statKind (prepare noteConfig b!"/w" (outputFlag b!"/w" none) pageDisk).2 b!"/w" (b!"html/" ++ b!"A b" ++ b!".html") ≠ none := by
  decide +kernel

/-- The run for statistics. -/
example : (standaloneRun exampleEnv walkConf demoDecode { noteConfig with str := fun o => if o = .outputType then b!"stats-json" else noteConfig.str o }
    (fun _ l => l) 100 noteFiles (fun _ _ => true) b!"/w" b!"/w/A b.mediawiki" none noteDisk noteEnv noteWorld).map
      (fun r => match r.1 with | .err => true | _ => false) = some true := by decide +kernel

end Verif.Props
