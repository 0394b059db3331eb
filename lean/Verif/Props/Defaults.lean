import Verif.Spec.Defaults
import Verif.Props.ConfigFiles

/-!
# C81: settings that are not given have the documented default
-/

namespace Verif.Props
open Verif.Go Verif.Model Verif.Spec Verif.Lemmas

theorem defaults_documented (m : Machine) (hcache : m.userCacheDir ≠ []) (f : ConfigField) :
    (entryName f, settingOf (defaultConfig m) f) ∈ documentedDefaults m := by
  have hd : pathJoin [m.userCacheDir, b!"wiki2book"] = clean (m.userCacheDir ++ b!"/wiki2book") := by
    simp [pathJoin, hcache, join]
  cases f with
  | str o => cases o <;> simp [documentedDefaults, entryName, textEntry, settingOf, defaultConfig, hd]
  | list o => cases o <;> simp [documentedDefaults, entryName, listEntry, settingOf, defaultConfig]
  | int o => cases o <;> simp [documentedDefaults, entryName, numberEntry, settingOf, defaultConfig]
  | bool o => cases o <;> simp [documentedDefaults, entryName, switchEntry, settingOf, defaultConfig]

/-- The defaults of paths are empty or absolute. -/
theorem default_path {m : Machine} (hcache : isAbs m.userCacheDir = true) {o : StrOpt} (ho : isPathOpt o = true) :
    (defaultConfig m).str o = [] ∨ isAbs ((defaultConfig m).str o) = true := by
  cases o <;> simp [isPathOpt] at ho
  · right; exact isAbs_pathJoin hcache
  · simp only [defaultConfig]
    split
    · right; rfl
    · left; rfl
  · left; rfl
  · left; rfl

theorem merge_default {cwd : Str} {m : Machine} (hcache : isAbs m.userCacheDir = true) {l : Layer} {cur r : Config}
    (h : mergeIntoCurrentConfig cwd (defaultConfig m) (decodeInto l (defaultConfig m)) cur = .ok r) {f : ConfigField} (hf : NotGiven l f)
    (hcur : settingOf cur f = settingOf (defaultConfig m) f) : settingOf r f = settingOf (defaultConfig m) f := by
  have hr := (merge_ok h).1
  subst hr
  cases f with
  | str o =>
    simp only [NotGiven] at hf
    simp only [settingOf, SettingValue.text.injEq] at hcur ⊢
    rw [workingDir_str, mergeFields_str]
    simp only [decodeInto, hf, Option.getD_none, ne_eq, not_true_eq_false, if_false, hcur]
    split
    · rename_i ho
      exact toAbsolutePath_of (default_path hcache ho)
    · rfl
  | list o =>
    simp only [NotGiven] at hf
    simp only [settingOf, SettingValue.texts.injEq] at hcur ⊢
    rw [workingDir_list, mergeFields_list]
    simp only [decodeInto, hf, Option.getD_none, equalsInAnyOrder_self, if_true, hcur]
    split
    · rename_i ho
      subst ho
      rfl
    · rfl
  | int o =>
    simp only [NotGiven] at hf
    simp only [settingOf, SettingValue.number.injEq] at hcur ⊢
    show (mergeFields cwd _ _ cur).int o = _
    rw [mergeFields_int]
    simp only [decodeInto, hf, Option.getD_none, ne_eq, not_true_eq_false, if_false, hcur]
  | bool o =>
    simp only [NotGiven] at hf
    simp only [settingOf, SettingValue.switch.injEq] at hcur ⊢
    show (mergeFields cwd _ _ cur).bool o = _
    rw [mergeFields_bool]
    simp only [decodeInto, hf, Option.getD_none, ne_eq, not_true_eq_false, if_false, hcur]

theorem file_default {i : Invocation} (hcache : isAbs i.machine.userCacheDir = true) {r : Config} (h : afterConfigFile i = .ok r)
    {f : ConfigField} (hf : NotGiven i.fileLayer f) : settingOf r f = settingOf (defaultConfig i.machine) f := by
  rcases afterConfigFile_ok h with ⟨-, rfl⟩ | ⟨file, l, hs, rfl, -⟩
  · rfl
  · have hl : i.fileLayer = l := by simp [Invocation.fileLayer, hs]
    rw [hl] at hf
    cases f with
    | str o =>
      simp only [NotGiven] at hf
      simp only [settingOf, SettingValue.text.injEq]
      by_cases ho : isPathOpt o = true
      · have : (makePathsAbsolute i.cwd file (decodeInto l (defaultConfig i.machine))).str o =
            toAbsolutePathWithBasedir i.cwd (dir (toAbsolutePath i.cwd file)) ((l.str o).getD ((defaultConfig i.machine).str o)) := by
          cases o <;> simp [isPathOpt] at ho <;> rfl
        rw [this, hf, Option.getD_none, toAbsolutePathWithBasedir, if_neg]
        rcases default_path hcache ho with h | h <;> simp [h]
      · have : (makePathsAbsolute i.cwd file (decodeInto l (defaultConfig i.machine))).str o = (l.str o).getD ((defaultConfig i.machine).str o) := by
          cases o <;> simp [isPathOpt] at ho <;> rfl
        rw [this, hf, Option.getD_none]
    | list o =>
      simp only [NotGiven] at hf
      cases o <;> simp [settingOf, makePathsAbsolute, decodeInto, hf, defaultConfig]
    | int o =>
      simp only [NotGiven] at hf
      simp [settingOf, makePathsAbsolute, decodeInto, hf]
    | bool o =>
      simp only [NotGiven] at hf
      simp [settingOf, makePathsAbsolute, decodeInto, hf]

theorem not_empty_of_abs {p : Str} (h : isAbs p = true) : p ≠ [] := by
  rintro rfl
  exact absurd h (by decide)

/-- **C81**: a setting that is given neither in the config file nor on the command line has its documented default, with `wiki2book article`
and `wiki2book standalone`. The cache folder of the user is an absolute path. -/
theorem C81_default_of_article {i : Invocation} {c : Config} (h : articleConfig i = .ok c) (hcache : isAbs i.machine.userCacheDir = true)
    (f : ConfigField) (hfile : NotGiven i.fileLayer f) (hcli : NotGiven i.cli f) :
    (entryName f, settingOf c f) ∈ documentedDefaults i.machine := by
  have : settingOf c f = settingOf (defaultConfig i.machine) f := by
    unfold articleConfig at h
    cases h1 : afterConfigFile i with
    | ok c1 =>
      rw [h1] at h
      exact merge_default hcache (by simpa using h) hcli (file_default hcache h1 hfile)
    | err => rw [h1] at h; simp at h
    | panic => rw [h1] at h; simp at h
    | fatal => rw [h1] at h; simp at h
  rw [this]
  exact defaults_documented _ (not_empty_of_abs hcache) f

/-- **C81**: the same with `wiki2book project`, if the project file does not contain the setting either. -/
theorem C81_default_of_project {i : Invocation} {projectFile : Str} {project : Layer} {c : Config} (h : projectConfig i projectFile project = .ok c)
    (hcache : isAbs i.machine.userCacheDir = true) (f : ConfigField) (hfile : NotGiven i.fileLayer f) (hproject : NotGiven project f)
    (hcli : NotGiven i.cli f) : (entryName f, settingOf c f) ∈ documentedDefaults i.machine := by
  obtain ⟨c1, c2, h1, h2, h3⟩ := projectConfig_ok h
  rw [merge_default hcache h3 hcli (merge_default hcache h2 hproject (file_default hcache h1 hfile))]
  exact defaults_documented _ (not_empty_of_abs hcache) f

/-- A setting without a member in a file is not given in it. -/
theorem notGiven_of_member {layer : Layer} {fields : JsonMembers} (hs : Settings layer fields) {f : ConfigField}
    (hf : ∀ m ∈ memberList fields, OtherName (entryName f) m.1) : NotGiven layer f := by
  have h := hs f
  have hno : ∀ (p : JsonVal → Prop), ¬ MemberIs fields (entryName f) (some p) := by
    rintro p ⟨v, -, before, after, hv, -⟩
    exact (hf (entryName f, v) (by rw [hv]; simp)).2 rfl
  cases f with
  | str o =>
    cases hl : layer.str o with
    | none => exact hl
    | some x => rw [EntryValue, hl] at h; exact absurd h (hno _)
  | list o =>
    cases hl : layer.list o with
    | none => exact hl
    | some x => rw [EntryValue, hl] at h; exact absurd h (hno _)
  | int o =>
    cases hl : layer.int o with
    | none => exact hl
    | some x => rw [EntryValue, hl] at h; exact absurd h (hno _)
  | bool o =>
    cases hl : layer.bool o with
    | none => exact hl
    | some x => rw [EntryValue, hl] at h; exact absurd h (hno _)

/-- **C81** for the text of the files: a setting whose name is neither in the config file nor in the project file and that is not given on the
command line has its documented default. -/
theorem C81_default_of_the_files (machine : Machine) (hcache : isAbs machine.userCacheDir = true) (cwd file text : Str) (cli fileLayer projectLayer : Layer)
    (fileFields projectFields : JsonMembers) (projectFile projectText : Str) (m : Metadata) (out : Str) (articles : List Str)
    (h1 : JsonText (.obj fileFields) text) (hn1 : nesting (.obj fileFields) ≤ 10000) (hs1 : Settings fileLayer fileFields)
    (h2 : JsonText (.obj projectFields) projectText) (hn2 : nesting (.obj projectFields) ≤ 10000)
    (hs2 : ProjectFile projectLayer m out articles projectFields) (outputFile : Str) (c : Config) (p : Project)
    (hok : loadBook machine cwd (some (file, text)) cli (projectFile, projectText) outputFile = .ok (c, p)) (f : ConfigField)
    (hf1 : ∀ m ∈ memberList fileFields, OtherName (entryName f) m.1) (hf2 : ∀ m ∈ memberList projectFields, OtherName (entryName f) m.1)
    (hcli : NotGiven cli f) : (entryName f, settingOf c f) ∈ documentedDefaults machine :=
  C81_default_of_project (C75_book_of_the_files machine cwd file text cli fileLayer projectLayer fileFields projectFields projectFile projectText m out
    articles h1 hn1 hs1 h2 hn2 hs2 outputFile c p hok).2.1 hcache f (notGiven_of_member hs1 hf1) (notGiven_of_member hs2.1 hf2) hcli

/-- Each setting has exactly one default in the table, and the table has no other lines. -/
theorem C81_one_default_each (m : Machine) : ((documentedDefaults m).map Prod.fst).Nodup ∧
    (∀ f, entryName f ∈ (documentedDefaults m).map Prod.fst) ∧ ∀ name ∈ (documentedDefaults m).map Prod.fst, ∃ f, name = entryName f := by
  have hnames : (documentedDefaults m).map Prod.fst = (documentedDefaults ⟨[], false, false⟩).map Prod.fst := rfl
  refine ⟨?_, ?_, ?_⟩
  · rw [hnames]
    decide +kernel
  · intro f
    rw [hnames]
    rcases f with o | o | o | o <;> cases o <;> decide +kernel
  · rw [hnames]
    have hall : ∀ name ∈ (documentedDefaults ⟨[], false, false⟩).map Prod.fst, name ∈ [StrOpt.outputType, .outputDriver, .cacheDir, .cacheEvictionStrategy,
      .styleFile, .coverImage, .commandTemplateSvgToPng, .commandTemplateMathSvgToPng, .commandTemplateImageProcessing, .commandTemplatePdfToPng,
      .commandTemplateWebpToPng, .pandocExecutable, .pandocDataDir, .wikipediaInstance, .wikipediaHost, .wikipediaImageHost, .wikipediaMathRestApi,
      .mathConverter, .userAgentTemplate].map textEntry ++ [ListOpt.fontFiles, .ignoredTemplates, .trailingTemplates, .ignoredImageParams,
      .ignoredMediaTypes, .wikipediaImageArticleHosts, .filePrefixes, .allowedLinkPrefixes, .categoryPrefixes].map listEntry ++
      [IntOpt.cacheMaxSize, .cacheMaxAge, .tocDepth, .workerThreads].map numberEntry ++ [BoolOpt.forceRegenerateHtml, .svgSizeToViewbox].map switchEntry := by
      decide +kernel
    intro name hn
    have := hall name hn
    simp only [List.mem_append, List.mem_map] at this
    rcases this with ((⟨o, -, rfl⟩ | ⟨o, -, rfl⟩) | ⟨o, -, rfl⟩) | ⟨o, -, rfl⟩
    exacts [⟨.str o, rfl⟩, ⟨.list o, rfl⟩, ⟨.int o, rfl⟩, ⟨.bool o, rfl⟩]

/-- The hypotheses can be met: three layers set other options, the number of threads is the documented one. -/
example : ∃ c, projectConfig ⟨aMachine, b!"/w", some (b!"conf/config.json", oneStr .cacheDir b!"../c"), oneInt .tocDepth 4⟩
    b!"books/book.json" (oneStr .wikipediaInstance b!"de") = .ok c ∧ c.int .workerThreads = 5 := by
  obtain ⟨c, h, -⟩ := of_returns (p := fun _ => true) (r := projectConfig
    ⟨aMachine, b!"/w", some (b!"conf/config.json", oneStr .cacheDir b!"../c"), oneInt .tocDepth 4⟩ b!"books/book.json" (oneStr .wikipediaInstance b!"de"))
    (by decide +kernel)
  refine ⟨c, h, ?_⟩
  have := C81_default_of_project h (by decide +kernel) (.int .workerThreads) rfl rfl rfl
  simpa [documentedDefaults, entryName, numberEntry, settingOf] using this

/-- The same for `wiki2book article` without a config file. -/
example : ∃ c, articleConfig ⟨aMachine, b!"/w", none, oneInt .tocDepth 4⟩ = .ok c ∧
    c.str .cacheDir = b!"/home/u/.cache/wiki2book" := by
  obtain ⟨c, h, -⟩ := of_returns (p := fun _ => true) (r := articleConfig ⟨aMachine, b!"/w", none, oneInt .tocDepth 4⟩) (by decide +kernel)
  refine ⟨c, h, ?_⟩
  have := C81_default_of_article h (by decide +kernel) (.str .cacheDir) rfl rfl
  simp only [documentedDefaults, entryName, textEntry, settingOf, List.mem_cons, Prod.mk.injEq, SettingValue.text.injEq, reduceCtorEq, and_false,
    List.not_mem_nil, or_false, false_or] at this
  rcases this with h | h | h | h | h | h | h | h | h | h | h | h | h | h | h | h | h | h | h | h | h
  all_goals first | exact absurd h.1 (by decide) | (rw [h.2]; decide +kernel)

/-- The same for the texts of two files. -/
example : ∃ c p, loadBook aMachine b!"/w" (some (b!"c.json", b!"{\"wikipedia-instance\":\"de\",\"comment\":null,\"toc-depth\":3}")) Layer.empty
      (b!"cities.json", b!"{\"metadata\":{\"title\":\"Cities\"},\"articles\":[\"Rome\", \"Berlin\"],\"output-file\":\"cities.epub\"}") [] =
        .ok (c, p) ∧ (b!"worker-threads", .number (c.int .workerThreads)) ∈ documentedDefaults aMachine := by
  have h := loadBook_files (machine := aMachine) (cwd := b!"/w") (file := b!"c.json") (cli := Layer.empty) (projectFile := b!"cities.json")
    german_text (by decide) german_settings city_text (by decide) city_project []
  obtain ⟨c, hc, -⟩ := of_returns (p := fun _ => true)
    (r := projectConfig ⟨aMachine, b!"/w", some (b!"c.json", germanLayer), Layer.empty⟩ b!"cities.json" Layer.empty) (by decide +kernel)
  rw [hc] at h
  exact ⟨c, _, h, C81_default_of_the_files aMachine (by decide +kernel) b!"/w" b!"c.json" _ Layer.empty germanLayer Layer.empty germanFile cityBook
    b!"cities.json" _ _ _ _ german_text (by decide) german_settings city_text (by decide) city_project [] c _ h (.int .workerThreads)
    (by simp [OtherName, memberList, germanFile, entryName, numberEntry]; decide +kernel)
    (by simp [OtherName, memberList, cityBook, entryName, numberEntry]; decide +kernel) rfl⟩

end Verif.Props
