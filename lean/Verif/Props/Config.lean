import Verif.Lemmas.Config
import Mathlib.Data.List.Perm.Subperm

/-!
# Properties C22 (order of the layers), C23 (valid configurations), C24 (comparison of lists),
C25 (paths of the config file), C48 (paths on the command line)
-/

namespace Verif.Props
open Verif.Go Verif.Model Verif.Spec Verif.Lemmas

/-! ### The merge, option by option -/

/-- How `MergeIntoCurrentConfig` treats a string of the configuration to be merged. -/
def takeOver (cwd : Str) (o : StrOpt) (v : Str) : Str :=
  if isPathOpt o then toAbsolutePath cwd v
  else if o = .pandocExecutable ∧ contains v b!"/" then toAbsolutePath cwd v
  else v

theorem mergeFields_str (cwd : Str) (d c cur : Config) (o : StrOpt) :
    (mergeFields cwd d c cur).str o = if c.str o ≠ d.str o then takeOver cwd o (c.str o) else cur.str o := by
  cases o <;> simp [mergeFields, takeOver, isPathOpt]

theorem mergeFields_list (cwd : Str) (d c cur : Config) (o : ListOpt) :
    (mergeFields cwd d c cur).list o =
      if equalsInAnyOrder (c.list o) (d.list o) then cur.list o
      else if o = .fontFiles then (c.list o).map (toAbsolutePath cwd) else c.list o := by
  cases o <;> simp only [mergeFields, Bool.not_eq_true, ite_not, reduceCtorEq, if_true, if_false]
    <;> split <;> simp_all

theorem mergeFields_int (cwd : Str) (d c cur : Config) (o : IntOpt) :
    (mergeFields cwd d c cur).int o = if c.int o ≠ d.int o then c.int o else cur.int o := by
  cases o <;> rfl

theorem mergeFields_bool (cwd : Str) (d c cur : Config) (o : BoolOpt) :
    (mergeFields cwd d c cur).bool o = if c.bool o ≠ d.bool o then c.bool o else cur.bool o := by
  cases o <;> rfl

theorem workingDir_str (cwd : Str) (c : Config) (o : StrOpt) :
    (makePathsAbsoluteToWorkingDir cwd c).str o =
      if isPathOpt o then toAbsolutePath cwd (c.str o) else c.str o := by
  cases o <;> rfl

theorem workingDir_list (cwd : Str) (c : Config) (o : ListOpt) :
    (makePathsAbsoluteToWorkingDir cwd c).list o =
      if o = .fontFiles then (c.list o).map (toAbsolutePath cwd) else c.list o := by
  cases o <;> rfl

/-- The configuration file of the invocation, nothing if none is given. -/
def _root_.Verif.Model.Invocation.fileLayer (i : Invocation) : Layer :=
  match i.configFile with
  | none => Layer.empty
  | some (_, l) => l

/-- The folder of the config file; without a config file it is of no interest. -/
def _root_.Verif.Model.Invocation.fileDir (i : Invocation) : Str :=
  match i.configFile with
  | none => []
  | some (file, _) => dir (toAbsolutePath i.cwd file)

theorem merge_ok {cwd : Str} {d c cur r : Config} (h : mergeIntoCurrentConfig cwd d c cur = .ok r) :
    r = makePathsAbsoluteToWorkingDir cwd (mergeFields cwd d c cur) ∧ Documented r := by
  unfold mergeIntoCurrentConfig at h
  simp only at h
  cases hv : assertValidity (makePathsAbsoluteToWorkingDir cwd (mergeFields cwd d c cur)) with
  | ok u =>
    rw [hv] at h
    simp only [Res.bind_ok, Res.pure_eq, Res.ok.injEq] at h
    subst h
    exact ⟨rfl, (assertValidity_iff _).mp hv⟩
  | err => rw [hv] at h; simp at h
  | panic => rw [hv] at h; simp at h
  | fatal => rw [hv] at h; simp at h

theorem afterConfigFile_ok {i : Invocation} {r : Config} (h : afterConfigFile i = .ok r) :
    (i.configFile = none ∧ r = defaultConfig i.machine) ∨
    (∃ file l, i.configFile = some (file, l) ∧
      r = makePathsAbsolute i.cwd file (decodeInto l (defaultConfig i.machine)) ∧ Documented r) := by
  unfold afterConfigFile at h
  cases hc : i.configFile with
  | none => rw [hc] at h; left; exact ⟨rfl, by simpa using h.symm⟩
  | some p =>
    obtain ⟨file, l⟩ := p
    rw [hc] at h
    right
    refine ⟨file, l, rfl, ?_⟩
    unfold loadConfig at h
    simp only at h
    cases hv : assertValidity (makePathsAbsolute i.cwd file (decodeInto l (defaultConfig i.machine))) with
    | ok u =>
      rw [hv] at h
      simp only [Res.bind_ok, Res.pure_eq, Res.ok.injEq] at h
      subst h
      exact ⟨rfl, (assertValidity_iff _).mp hv⟩
    | err => rw [hv] at h; simp at h
    | panic => rw [hv] at h; simp at h
    | fatal => rw [hv] at h; simp at h

theorem projectConfig_ok {i : Invocation} {pf : Str} {l : Layer} {c : Config}
    (h : projectConfig i pf l = .ok c) :
    ∃ c1 c2, afterConfigFile i = .ok c1 ∧
      mergeIntoCurrentConfig (projectCwd i.cwd pf) (defaultConfig i.machine)
        (decodeInto l (defaultConfig i.machine)) c1 = .ok c2 ∧
      mergeIntoCurrentConfig (projectCwd i.cwd pf) (defaultConfig i.machine)
        (decodeInto i.cli (defaultConfig i.machine)) c2 = .ok c := by
  unfold projectConfig at h
  cases h1 : afterConfigFile i with
  | ok c1 =>
    rw [h1] at h
    simp only [Res.bind_ok] at h
    cases h2 : mergeIntoCurrentConfig (projectCwd i.cwd pf) (defaultConfig i.machine)
        (decodeInto l (defaultConfig i.machine)) c1 with
    | ok c2 =>
      rw [h2] at h
      exact ⟨c1, c2, rfl, h2, by simpa using h⟩
    | err => rw [h2] at h; simp at h
    | panic => rw [h2] at h; simp at h
    | fatal => rw [h2] at h; simp at h
  | err => rw [h1] at h; simp at h
  | panic => rw [h1] at h; simp at h
  | fatal => rw [h1] at h; simp at h

/-! ### C22: command line before project file before config file before default

The full claim would be the theorems below without the hypotheses `hp` and `hc`: they say that the
project file and the command line never set an option to its default value.  Without them the claim is
false (`C22_default_value_does_not_override`). -/

theorem merge_value {α : Type} [DecidableEq α] {d cur x : α} {l : Option α} (hx : x = l.getD d)
    (h : ∀ v, l = some v → v ≠ d) : (if x ≠ d then x else cur) = firstSet [l] cur := by
  subst hx
  cases l with
  | none => simp [firstSet]
  | some v => simp [firstSet, h v rfl]

/-- Number options. -/
theorem C22_int_option_partial {i : Invocation} {pf : Str} {project : Layer} {c : Config}
    (h : projectConfig i pf project = .ok c) (o : IntOpt)
    (hp : ∀ v, project.int o = some v → v ≠ (defaultConfig i.machine).int o)
    (hc : ∀ v, i.cli.int o = some v → v ≠ (defaultConfig i.machine).int o) :
    c.int o = firstSet [i.cli.int o, project.int o, i.fileLayer.int o] ((defaultConfig i.machine).int o) := by
  obtain ⟨c1, c2, h1, h2, h3⟩ := projectConfig_ok h
  have e1 : c1.int o = firstSet [i.fileLayer.int o] ((defaultConfig i.machine).int o) := by
    rcases afterConfigFile_ok h1 with ⟨hn, rfl⟩ | ⟨file, l, hs, rfl, _⟩
    · simp [Invocation.fileLayer, hn, Layer.empty, firstSet]
    · simp only [makePathsAbsolute, decodeInto, Invocation.fileLayer, hs]
      cases l.int o <;> rfl
  have e2 := (merge_ok h2).1
  have e3 := (merge_ok h3).1
  rw [e3]
  simp only [makePathsAbsoluteToWorkingDir]
  rw [mergeFields_int, e2]
  simp only [makePathsAbsoluteToWorkingDir]
  rw [mergeFields_int, e1]
  rw [merge_value (x := (decodeInto project (defaultConfig i.machine)).int o) (l := project.int o) rfl hp,
    merge_value (x := (decodeInto i.cli (defaultConfig i.machine)).int o) (l := i.cli.int o) rfl hc]
  cases i.cli.int o <;> cases project.int o <;> rfl

/-- Switches. -/
theorem C22_bool_option_partial {i : Invocation} {pf : Str} {project : Layer} {c : Config}
    (h : projectConfig i pf project = .ok c) (o : BoolOpt)
    (hp : ∀ v, project.bool o = some v → v ≠ (defaultConfig i.machine).bool o)
    (hc : ∀ v, i.cli.bool o = some v → v ≠ (defaultConfig i.machine).bool o) :
    c.bool o = firstSet [i.cli.bool o, project.bool o, i.fileLayer.bool o]
      ((defaultConfig i.machine).bool o) := by
  obtain ⟨c1, c2, h1, h2, h3⟩ := projectConfig_ok h
  have e1 : c1.bool o = firstSet [i.fileLayer.bool o] ((defaultConfig i.machine).bool o) := by
    rcases afterConfigFile_ok h1 with ⟨hn, rfl⟩ | ⟨file, l, hs, rfl, _⟩
    · simp [Invocation.fileLayer, hn, Layer.empty, firstSet]
    · simp only [makePathsAbsolute, decodeInto, Invocation.fileLayer, hs]
      cases l.bool o <;> rfl
  have e2 := (merge_ok h2).1
  have e3 := (merge_ok h3).1
  rw [e3]
  simp only [makePathsAbsoluteToWorkingDir]
  rw [mergeFields_bool, e2]
  simp only [makePathsAbsoluteToWorkingDir]
  rw [mergeFields_bool, e1]
  rw [merge_value (x := (decodeInto project (defaultConfig i.machine)).bool o) (l := project.bool o) rfl hp,
    merge_value (x := (decodeInto i.cli (defaultConfig i.machine)).bool o) (l := i.cli.bool o) rfl hc]
  cases i.cli.bool o <;> cases project.bool o <;> rfl

/-- The text options that are no paths, except `pandoc-executable`. -/
theorem C22_text_option_partial {i : Invocation} {pf : Str} {project : Layer} {c : Config}
    (h : projectConfig i pf project = .ok c) (o : StrOpt) (ho : isPathOpt o = false)
    (hexe : o ≠ .pandocExecutable)
    (hp : ∀ v, project.str o = some v → v ≠ (defaultConfig i.machine).str o)
    (hc : ∀ v, i.cli.str o = some v → v ≠ (defaultConfig i.machine).str o) :
    c.str o = firstSet [i.cli.str o, project.str o, i.fileLayer.str o] ((defaultConfig i.machine).str o) := by
  obtain ⟨c1, c2, h1, h2, h3⟩ := projectConfig_ok h
  have e1 : c1.str o = firstSet [i.fileLayer.str o] ((defaultConfig i.machine).str o) := by
    rcases afterConfigFile_ok h1 with ⟨hn, rfl⟩ | ⟨file, l, hs, rfl, _⟩
    · simp [Invocation.fileLayer, hn, Layer.empty, firstSet]
    · have : (makePathsAbsolute i.cwd file (decodeInto l (defaultConfig i.machine))).str o =
          (l.str o).getD ((defaultConfig i.machine).str o) := by
        cases o <;> simp [isPathOpt] at ho <;> rfl
      rw [this]
      simp only [Invocation.fileLayer, hs]
      cases l.str o <;> rfl
  have e2 := (merge_ok h2).1
  have e3 := (merge_ok h3).1
  rw [e3, workingDir_str, mergeFields_str, e2, workingDir_str, mergeFields_str, e1]
  simp only [ho, takeOver, hexe, Bool.false_eq_true, if_false, false_and]
  rw [merge_value (x := (decodeInto project (defaultConfig i.machine)).str o) (l := project.str o) rfl hp,
    merge_value (x := (decodeInto i.cli (defaultConfig i.machine)).str o) (l := i.cli.str o) rfl hc]
  cases i.cli.str o <;> cases project.str o <;> rfl

/-- The path of the pandoc executable as it is taken over from the project file and the command line: a
name without `/` is searched by the system, everything else is a path. -/
def executable (folder v : Str) : Str := if contains v b!"/" then resolveAgainst folder v else v

/-- The option `pandoc-executable`. -/
theorem C22_pandoc_executable_partial {i : Invocation} {pf : Str} {project : Layer} {c : Config}
    (h : projectConfig i pf project = .ok c) (hcwd : isAbs i.cwd = true)
    (hp : ∀ v, project.str .pandocExecutable = some v → v ≠ b!"pandoc")
    (hc : ∀ v, i.cli.str .pandocExecutable = some v → v ≠ b!"pandoc") :
    c.str .pandocExecutable =
      firstSet [(i.cli.str .pandocExecutable).map (executable (projectCwd i.cwd pf)),
        (project.str .pandocExecutable).map (executable (projectCwd i.cwd pf)),
        i.fileLayer.str .pandocExecutable] b!"pandoc" := by
  obtain ⟨c1, c2, h1, h2, h3⟩ := projectConfig_ok h
  have e1 : c1.str .pandocExecutable = firstSet [i.fileLayer.str .pandocExecutable] b!"pandoc" := by
    rcases afterConfigFile_ok h1 with ⟨hn, rfl⟩ | ⟨file, l, hs, rfl, _⟩
    · simp [Invocation.fileLayer, hn, Layer.empty, firstSet, defaultConfig]
    · have : (makePathsAbsolute i.cwd file (decodeInto l (defaultConfig i.machine))).str .pandocExecutable =
          (l.str .pandocExecutable).getD b!"pandoc" := rfl
      rw [this]
      simp only [Invocation.fileLayer, hs]
      cases l.str .pandocExecutable <;> rfl
  have e2 := (merge_ok h2).1
  have e3 := (merge_ok h3).1
  have hd : (defaultConfig i.machine).str .pandocExecutable = b!"pandoc" := rfl
  have ht : ∀ v, takeOver (projectCwd i.cwd pf) .pandocExecutable v = executable (projectCwd i.cwd pf) v := by
    intro v
    simp [takeOver, executable, isPathOpt, toAbsolutePath_eq (isAbs_projectCwd hcwd)]
  rw [e3, workingDir_str, mergeFields_str, e2, workingDir_str, mergeFields_str, e1]
  simp only [ht, hd, isPathOpt, Bool.false_eq_true, if_false, decodeInto]
  cases hcli : i.cli.str .pandocExecutable with
  | some v => simp [firstSet, hc v hcli]
  | none =>
    cases hpr : project.str .pandocExecutable with
    | some v => simp [firstSet, hp v hpr]
    | none => simp [firstSet]

/-- The options with a path. The paths of the config file are relative to it, the others relative to the
folder of the project file. -/
theorem C22_path_option_partial {i : Invocation} {pf : Str} {project : Layer} {c : Config}
    (h : projectConfig i pf project = .ok c) (o : StrOpt) (ho : isPathOpt o = true)
    (hcwd : isAbs i.cwd = true) (hcache : isAbs i.machine.userCacheDir = true)
    (hfile : ∀ file l, i.configFile = some (file, l) → file ≠ [])
    (hp : ∀ v, project.str o = some v → v ≠ (defaultConfig i.machine).str o)
    (hc : ∀ v, i.cli.str o = some v → v ≠ (defaultConfig i.machine).str o) :
    c.str o = firstSet [(i.cli.str o).map (resolveAgainst (projectCwd i.cwd pf)),
      (project.str o).map (resolveAgainst (projectCwd i.cwd pf)),
      (i.fileLayer.str o).map (resolveAgainst i.fileDir)] ((defaultConfig i.machine).str o) := by
  obtain ⟨c1, c2, h1, h2, h3⟩ := projectConfig_ok h
  have hdef : (defaultConfig i.machine).str o = [] ∨ isAbs ((defaultConfig i.machine).str o) = true := by
    cases o <;> simp [isPathOpt] at ho
    · right; exact isAbs_pathJoin hcache
    · simp only [defaultConfig]
      split
      · right; rfl
      · left; rfl
    · left; rfl
    · left; rfl
  have e1 : c1.str o = firstSet [(i.fileLayer.str o).map (resolveAgainst i.fileDir)]
      ((defaultConfig i.machine).str o) := by
    rcases afterConfigFile_ok h1 with ⟨hn, rfl⟩ | ⟨file, l, hs, rfl, _⟩
    · simp [Invocation.fileLayer, hn, Layer.empty, firstSet]
    · have hdir : isAbs i.fileDir = true := by
        simp only [Invocation.fileDir, hs]
        exact isAbs_dir (isAbs_toAbsolutePath hcwd (hfile file l hs))
      have : (makePathsAbsolute i.cwd file (decodeInto l (defaultConfig i.machine))).str o =
          resolveAgainst i.fileDir ((l.str o).getD ((defaultConfig i.machine).str o)) := by
        rw [← toAbsolutePathWithBasedir_eq (cwd := i.cwd) hdir]
        simp only [Invocation.fileDir, hs]
        cases o <;> simp [isPathOpt] at ho <;> rfl
      rw [this]
      simp only [Invocation.fileLayer, hs]
      cases l.str o with
      | some v => simp [firstSet]
      | none =>
        simp only [Option.getD_none, Option.map_none, firstSet]
        rw [← toAbsolutePath_eq hdir, toAbsolutePath_of hdef]
  have e2 := (merge_ok h2).1
  have e3 := (merge_ok h3).1
  have hcwd' := isAbs_projectCwd (pf := pf) hcwd
  generalize hC : projectCwd i.cwd pf = cwd at *
  have hab : ∀ v, toAbsolutePath cwd (resolveAgainst cwd v) = resolveAgainst cwd v :=
    fun v => toAbsolutePath_of (resolveAgainst_cases cwd v)
  have h1' : toAbsolutePath cwd (c1.str o) = c1.str o := by
    apply toAbsolutePath_of
    rw [e1]
    cases i.fileLayer.str o with
    | none => exact hdef
    | some v => exact resolveAgainst_cases _ v
  have ht : ∀ v, takeOver cwd o v = resolveAgainst cwd v := by
    intro v; simp [takeOver, ho, toAbsolutePath_eq hcwd']
  rw [e3, workingDir_str, mergeFields_str, e2, workingDir_str, mergeFields_str]
  simp only [ho, if_true, ht, decodeInto]
  cases hcli : i.cli.str o with
  | some v => simp [firstSet, hc v hcli, hab]
  | none =>
    cases hpr : project.str o with
    | some v => simp [firstSet, hp v hpr, hab]
    | none =>
      rw [e1] at h1'
      simp [firstSet, e1, h1']

/-- The list options without paths. -/
theorem C22_list_option_partial {i : Invocation} {pf : Str} {project : Layer} {c : Config}
    (h : projectConfig i pf project = .ok c) (o : ListOpt) (ho : o ≠ .fontFiles)
    (hp : ∀ v, project.list o = some v → equalsInAnyOrder v ((defaultConfig i.machine).list o) = false)
    (hc : ∀ v, i.cli.list o = some v → equalsInAnyOrder v ((defaultConfig i.machine).list o) = false) :
    c.list o = firstSet [i.cli.list o, project.list o, i.fileLayer.list o]
      ((defaultConfig i.machine).list o) := by
  obtain ⟨c1, c2, h1, h2, h3⟩ := projectConfig_ok h
  have e1 : c1.list o = firstSet [i.fileLayer.list o] ((defaultConfig i.machine).list o) := by
    rcases afterConfigFile_ok h1 with ⟨hn, rfl⟩ | ⟨file, l, hs, rfl, _⟩
    · simp [Invocation.fileLayer, hn, Layer.empty, firstSet]
    · have : (makePathsAbsolute i.cwd file (decodeInto l (defaultConfig i.machine))).list o =
          (l.list o).getD ((defaultConfig i.machine).list o) := by
        cases o <;> first | exact absurd rfl ho | rfl
      rw [this]
      simp only [Invocation.fileLayer, hs]
      cases l.list o <;> rfl
  have e2 := (merge_ok h2).1
  have e3 := (merge_ok h3).1
  rw [e3, workingDir_list, mergeFields_list, e2, workingDir_list, mergeFields_list, e1]
  simp only [ho, if_false, decodeInto]
  have hself := equalsInAnyOrder_self ((defaultConfig i.machine).list o)
  cases hcli : i.cli.list o with
  | some v => simp [firstSet, hc v hcli]
  | none =>
    cases hpr : project.list o with
    | some v => simp [firstSet, hp v hpr, hself]
    | none => simp [firstSet, hself]

/-- The option `font-files`. Fonts of the config file must be given by relative paths
(`hrel`; see `C25_absolute_font_file_moves`). -/
theorem C22_font_files_partial {i : Invocation} {pf : Str} {project : Layer} {c : Config}
    (h : projectConfig i pf project = .ok c) (hcwd : isAbs i.cwd = true)
    (hfile : ∀ file l, i.configFile = some (file, l) → file ≠ [])
    (hrel : ∀ v, i.fileLayer.list .fontFiles = some v → ∀ f ∈ v, f ≠ [] ∧ isAbs f = false)
    (hp : ∀ v, project.list .fontFiles = some v → v ≠ [])
    (hc : ∀ v, i.cli.list .fontFiles = some v → v ≠ []) :
    c.list .fontFiles =
      firstSet [(i.cli.list .fontFiles).map (List.map (resolveAgainst (projectCwd i.cwd pf))),
        (project.list .fontFiles).map (List.map (resolveAgainst (projectCwd i.cwd pf))),
        (i.fileLayer.list .fontFiles).map (List.map (resolveAgainst i.fileDir))] [] := by
  obtain ⟨c1, c2, h1, h2, h3⟩ := projectConfig_ok h
  have e1 : c1.list .fontFiles =
      firstSet [(i.fileLayer.list .fontFiles).map (List.map (resolveAgainst i.fileDir))] [] := by
    rcases afterConfigFile_ok h1 with ⟨hn, rfl⟩ | ⟨file, l, hs, rfl, _⟩
    · simp [Invocation.fileLayer, hn, Layer.empty, firstSet, defaultConfig]
    · have hdir : isAbs i.fileDir = true := by
        simp only [Invocation.fileDir, hs]
        exact isAbs_dir (isAbs_toAbsolutePath hcwd (hfile file l hs))
      have : (makePathsAbsolute i.cwd file (decodeInto l (defaultConfig i.machine))).list .fontFiles =
          ((l.list .fontFiles).getD []).map (fun f => pathJoin [i.fileDir, f]) := by
        simp only [Invocation.fileDir, hs]; rfl
      rw [this]
      have hl : i.fileLayer.list .fontFiles = l.list .fontFiles := by simp [Invocation.fileLayer, hs]
      rw [hl] at hrel ⊢
      cases hv : l.list .fontFiles with
      | none => rfl
      | some v =>
        simp only [Option.getD_some, Option.map_some, firstSet]
        apply List.map_congr_left
        intro f hf
        obtain ⟨hne, hna⟩ := hrel v hv f hf
        rw [pathJoin_abs hdir, resolveAgainst, if_neg hne, if_neg]
        intro hh
        rw [isAbs_iff.mpr hh] at hna
        simp at hna
  have e2 := (merge_ok h2).1
  have e3 := (merge_ok h3).1
  have hcwd' := isAbs_projectCwd (pf := pf) hcwd
  generalize hC : projectCwd i.cwd pf = cwd at *
  have hab : ∀ v, toAbsolutePath cwd (resolveAgainst cwd v) = resolveAgainst cwd v :=
    fun v => toAbsolutePath_of (resolveAgainst_cases cwd v)
  have habs : ∀ v, toAbsolutePath cwd (toAbsolutePath cwd v) = resolveAgainst cwd v := by
    intro v; rw [toAbsolutePath_eq (p := v) hcwd', hab]
  have hmap : ∀ v : List Str, (v.map (toAbsolutePath cwd)).map (toAbsolutePath cwd) =
      v.map (resolveAgainst cwd) := by
    intro v; rw [List.map_map]; apply List.map_congr_left; intro x _; exact habs x
  have hmap3 : ∀ v : List Str, (v.map (resolveAgainst cwd)).map (toAbsolutePath cwd) =
      v.map (resolveAgainst cwd) := by
    intro v; rw [List.map_map]; apply List.map_congr_left; intro x _; exact hab x
  have h1' : (c1.list .fontFiles).map (toAbsolutePath cwd) = c1.list .fontFiles := by
    rw [e1]
    cases i.fileLayer.list .fontFiles with
    | none => rfl
    | some v =>
      simp only [Option.map_some, firstSet]
      rw [List.map_map]
      apply List.map_congr_left
      intro x _
      exact toAbsolutePath_of (resolveAgainst_cases _ x)
  have hd : (defaultConfig i.machine).list .fontFiles = [] := rfl
  have hn : ∀ v : List Str, v ≠ [] → equalsInAnyOrder v [] = false := by
    intro v hv; simp [equalsInAnyOrder, hv]
  rw [e3, workingDir_list, mergeFields_list, e2, workingDir_list, mergeFields_list]
  simp only [if_true, decodeInto, hd]
  cases hcli : i.cli.list .fontFiles with
  | some v => simp only [Option.getD_some, hn v (hc v hcli), Bool.false_eq_true, if_false, hmap,
      Option.map_some, firstSet]
  | none =>
    have hs := equalsInAnyOrder_self ([] : List Str)
    cases hpr : project.list .fontFiles with
    | some v => simp only [Option.getD_some, Option.getD_none, hs, if_true, hn v (hp v hpr), Bool.false_eq_true,
        if_false, hmap, hmap3, Option.map_some, Option.map_none, firstSet]
    | none => simp only [Option.getD_none, hs, if_true, h1', Option.map_none, firstSet]; rw [e1]

/-- The function returned a value with the given property (decidable, for concrete runs). -/
def returns {α : Type} (r : Res α) (p : α → Bool) : Bool :=
  match r with
  | .ok a => p a
  | _ => false

theorem of_returns {α : Type} {r : Res α} {p : α → Bool} (h : returns r p = true) :
    ∃ a, r = .ok a ∧ p a = true := by
  cases r with
  | ok a => exact ⟨a, rfl, h⟩
  | err => simp [returns] at h
  | panic => simp [returns] at h
  | fatal => simp [returns] at h

/-- The program was ended by a fatal error (decidable, for concrete runs). -/
def isFatal {α : Type} : Res α → Bool
  | .fatal => true
  | _ => false

theorem of_isFatal {α : Type} {r : Res α} (h : isFatal r = true) : r = .fatal := by
  cases r <;> simp_all [isFatal]

/-- A machine for the examples. -/
def aMachine : Machine := ⟨b!"/home/u/.cache", false, false⟩

/-- The layer that sets one text option. -/
def oneStr (o : StrOpt) (v : Str) : Layer :=
  { Layer.empty with str := fun x => if x = o then some v else none }

/-- The layer that sets one number option. -/
def oneInt (o : IntOpt) (v : Int) : Layer :=
  { Layer.empty with int := fun x => if x = o then some v else none }

/-- C22 does not hold in general: `wiki2book -c config.json --wikipedia-instance en project book.json` uses
the German Wikipedia if the config file says so, because `en` is also the default. -/
theorem C22_default_value_does_not_override :
    ∃ (i : Invocation) (c : Config), i.cli.str .wikipediaInstance = some b!"en" ∧
      projectConfig i b!"book.json" Layer.empty = .ok c ∧ c.str .wikipediaInstance = b!"de" := by
  obtain ⟨c, h, hp⟩ := of_returns (p := fun c => c.str .wikipediaInstance = b!"de")
    (r := projectConfig ⟨aMachine, b!"/w", some (b!"config.json", oneStr .wikipediaInstance b!"de"),
      oneStr .wikipediaInstance b!"en"⟩ b!"book.json" Layer.empty) (by decide +kernel)
  exact ⟨_, c, rfl, h, by simpa using hp⟩

/-- The hypotheses of the theorems of C22 can be met: config file, project file and command line set
different options and the command line wins. -/
example : ∃ c, projectConfig
      ⟨aMachine, b!"/w", some (b!"conf/config.json", oneStr .cacheDir b!"../c"), oneInt .tocDepth 4⟩
      b!"books/book.json" (oneInt .tocDepth 3) = .ok c ∧ decide (c.int .tocDepth = 4 ∧
      c.str .cacheDir = b!"/w/c") = true :=
  of_returns (by decide +kernel)

/-! ### C23: only valid configurations are used -/

/-- The check accepts exactly the configurations within the documented ranges. -/
theorem C23_check_is_documentation (c : Config) :
    (assertValidity c = .ok () ↔ Documented c) ∧ (assertValidity c = .fatal ↔ ¬ Documented c) := by
  refine ⟨assertValidity_iff c, ?_⟩
  rw [← assertValidity_iff]
  have : assertValidity c = .ok () ∨ assertValidity c = .fatal := by
    unfold assertValidity
    simp only
    have step : ∀ (p : Prop) [Decidable p] (r : Res Unit), r = .ok () ∨ r = .fatal →
        (if p then Res.fatal else r) = .ok () ∨ (if p then Res.fatal else r) = .fatal := by
      intro p _ r hr
      split
      · exact .inr rfl
      · exact hr
    repeat' apply step
    exact .inl rfl
  rcases this with h | h <;> simp [h]

/-- The commands only work with configurations within the documented ranges. -/
theorem C23_only_documented_configurations {i : Invocation} {pf : Str} {project : Layer} {c : Config}
    (h : articleConfig i = .ok c ∨ projectConfig i pf project = .ok c) : Documented c := by
  rcases h with h | h
  · unfold articleConfig at h
    cases h1 : afterConfigFile i with
    | ok c1 => rw [h1] at h; exact (merge_ok (by simpa using h)).2
    | err => rw [h1] at h; simp at h
    | panic => rw [h1] at h; simp at h
    | fatal => rw [h1] at h; simp at h
  · obtain ⟨_, _, _, _, h3⟩ := projectConfig_ok h
    exact (merge_ok h3).2

theorem documented_congr {c c' : Config} (hs : ∀ o, isPathOpt o = false → o ≠ .pandocExecutable → c.str o = c'.str o)
    (hi : ∀ o, c.int o = c'.int o) : Documented c ↔ Documented c' := by
  have key : ∀ c c' : Config, (∀ o, isPathOpt o = false → o ≠ .pandocExecutable → c.str o = c'.str o) →
      (∀ o, c.int o = c'.int o) → Documented c → Documented c' := by
    intro c c' hs hi h
    have e := fun o (h : isPathOpt o = false ∧ o ≠ .pandocExecutable) => hs o h.1 h.2
    constructor
    · rw [← e .outputType (by decide), ← e .outputDriver (by decide)]; exact h.output
    · rw [← e _ (by decide)]; exact h.math
    · rw [← hi]; exact h.tocDepth
    · rw [← hi]; exact h.workerThreads
    · rw [← e _ (by decide)]; exact h.svg
    · rw [← e _ (by decide)]; exact h.mathSvg
    · rw [← e _ (by decide)]; exact h.image
    · rw [← e _ (by decide)]; exact h.pdf
    · rw [← e _ (by decide)]; exact h.webp
    · rw [← hi]; exact h.size
    · rw [← hi]; exact h.age
    · rw [← e _ (by decide)]; exact h.eviction
  exact ⟨key c c' hs hi, key c' c (fun o h1 h2 => (hs o h1 h2).symm) (fun o => (hi o).symm)⟩

/-- Every documented configuration is accepted if it is given completely on the command line. In general
(options spread over several files) this is false: `C23_intermediate_configuration_is_rejected`. -/
theorem C23_documented_configuration_accepted_partial (i : Invocation) (hn : i.configFile = none) :
    (∃ c, articleConfig i = .ok c) ↔ Documented (decodeInto i.cli (defaultConfig i.machine)) := by
  have hm : ∀ o, isPathOpt o = false → o ≠ .pandocExecutable →
      (makePathsAbsoluteToWorkingDir i.cwd (mergeFields i.cwd (defaultConfig i.machine)
        (decodeInto i.cli (defaultConfig i.machine)) (defaultConfig i.machine))).str o =
      (decodeInto i.cli (defaultConfig i.machine)).str o := by
    intro o h1 h2
    rw [workingDir_str, mergeFields_str]
    simp only [h1, takeOver, h2, Bool.false_eq_true, if_false, false_and]
    split
    · rfl
    · rename_i h; exact (Decidable.not_not.mp h).symm
  have hi : ∀ o, (makePathsAbsoluteToWorkingDir i.cwd (mergeFields i.cwd (defaultConfig i.machine)
        (decodeInto i.cli (defaultConfig i.machine)) (defaultConfig i.machine))).int o =
      (decodeInto i.cli (defaultConfig i.machine)).int o := by
    intro o
    simp only [makePathsAbsoluteToWorkingDir]
    rw [mergeFields_int]
    split
    · rfl
    · rename_i h; exact (Decidable.not_not.mp h).symm
  rw [← documented_congr hm hi, ← assertValidity_iff]
  unfold articleConfig afterConfigFile mergeIntoCurrentConfig
  simp only [hn, Res.bind_ok]
  constructor
  · rintro ⟨c, hc⟩
    cases hv : assertValidity (makePathsAbsoluteToWorkingDir i.cwd (mergeFields i.cwd (defaultConfig i.machine)
        (decodeInto i.cli (defaultConfig i.machine)) (defaultConfig i.machine))) with
    | ok u => rfl
    | err => rw [hv] at hc; simp at hc
    | panic => rw [hv] at hc; simp at hc
    | fatal => rw [hv] at hc; simp at hc
  · intro h
    rw [h]
    exact ⟨_, rfl⟩

/-- Options that are fine together are rejected if they are spread over the config file and the command
line: `output-driver: internal` in the config file and `--output-type epub3`. The check after the config
file sees the internal driver together with the default output type. -/
theorem C23_intermediate_configuration_is_rejected :
    ∃ (i : Invocation) (l : Layer), i.configFile = some (b!"config.json", l) ∧
      Documented (decodeInto i.cli (decodeInto l (defaultConfig i.machine))) ∧
      articleConfig i = .fatal := by
  refine ⟨⟨aMachine, b!"/w", some (b!"config.json", oneStr .outputDriver b!"internal"),
    oneStr .outputType b!"epub3"⟩, _, rfl, ?_, ?_⟩
  · rw [← assertValidity_iff]; decide +kernel
  · exact of_isFatal (by decide +kernel)

/-! ### C24: comparison of lists

The full claim would be `equalsInAnyOrder a b = true ↔ a.Perm b` for all lists; it is false for lists
with repeated elements (`C24_duplicates_are_confused`). -/

/-- For a list without repeated elements the comparison is right. -/
theorem C24_equal_iff_permutation_partial {α : Type} [DecidableEq α] {a b : List α} (ha : a.Nodup) :
    equalsInAnyOrder a b = true ↔ a.Perm b := by
  unfold equalsInAnyOrder
  simp only [Bool.and_eq_true, decide_eq_true_eq, List.all_eq_true]
  constructor
  · rintro ⟨hl, h⟩
    have hsub : a ⊆ b := fun x hx => (h x hx).2
    exact (List.subperm_of_subset ha hsub).perm_of_length_le (by omega)
  · intro h
    exact ⟨h.length_eq, fun x hx => ⟨hx, h.mem_iff.mp hx⟩⟩

/-- Equal lists in any order are always recognised as equal, with or without repetitions. -/
theorem C24_permutations_are_equal {α : Type} [DecidableEq α] {a b : List α} (h : a.Perm b) :
    equalsInAnyOrder a b = true := by
  unfold equalsInAnyOrder
  simp only [Bool.and_eq_true, decide_eq_true_eq, List.all_eq_true]
  exact ⟨h.length_eq, fun x hx => ⟨hx, h.mem_iff.mp hx⟩⟩

/-- Lists of different length and lists with a foreign element are always recognised as different. -/
theorem C24_difference_is_seen {α : Type} [DecidableEq α] {a b : List α}
    (h : a.length ≠ b.length ∨ ∃ x ∈ a, x ∉ b) : equalsInAnyOrder a b = false := by
  unfold equalsInAnyOrder
  rcases h with h | ⟨x, hx, hb⟩
  · simp [h]
  · simp only [Bool.and_eq_false_iff, decide_eq_false_iff_not, List.all_eq_false]
    exact .inr ⟨x, hx, by simp [hb]⟩

/-- Repeated elements are confused, and the order of the arguments matters: the option
`allowed-link-prefixes: ["doi", "doi"]` is taken for the default `["arxiv", "doi"]`, so that the links with
prefix `arxiv` are still allowed. -/
theorem C24_duplicates_are_confused :
    equalsInAnyOrder [b!"doi", b!"doi"] [b!"arxiv", b!"doi"] = true ∧
    equalsInAnyOrder [b!"arxiv", b!"doi"] [b!"doi", b!"doi"] = false ∧
    ¬ [b!"doi", b!"doi"].Perm [b!"arxiv", b!"doi"] := by
  decide

example : [b!"b", b!"a"].Nodup ∧ equalsInAnyOrder [b!"b", b!"a"] [b!"a", b!"b"] = true := by decide

/-! ### C25: paths of the config file

The full claim includes the fonts with absolute paths, for which it is false
(`C25_absolute_font_file_moves`). -/

/-- Paths in the config file are relative to the folder of the config file, and nothing else changes. -/
theorem C25_paths_relative_to_config_file_partial {cwd file : Str} (hcwd : isAbs cwd = true) (hf : file ≠ [])
    (c : Config) :
    (∀ o, (makePathsAbsolute cwd file c).str o =
      if isPathOpt o then resolveAgainst (dir (toAbsolutePath cwd file)) (c.str o) else c.str o) ∧
    ((∀ f ∈ c.list .fontFiles, f ≠ [] ∧ isAbs f = false) →
      (makePathsAbsolute cwd file c).list .fontFiles =
        (c.list .fontFiles).map (resolveAgainst (dir (toAbsolutePath cwd file)))) ∧
    (∀ o, o ≠ .fontFiles → (makePathsAbsolute cwd file c).list o = c.list o) ∧
    (makePathsAbsolute cwd file c).int = c.int ∧ (makePathsAbsolute cwd file c).bool = c.bool := by
  have hdir := isAbs_dir (isAbs_toAbsolutePath hcwd hf)
  refine ⟨?_, ?_, ?_, rfl, rfl⟩
  · intro o
    rw [← toAbsolutePathWithBasedir_eq (cwd := cwd) hdir]
    cases o <;> rfl
  · intro h
    have : (makePathsAbsolute cwd file c).list .fontFiles =
      (c.list .fontFiles).map fun f => pathJoin [dir (toAbsolutePath cwd file), f] := rfl
    rw [this]
    apply List.map_congr_left
    intro f hm
    obtain ⟨hne, hna⟩ := h f hm
    rw [pathJoin_abs hdir, resolveAgainst, if_neg hne, if_neg]
    intro hh
    rw [isAbs_iff.mpr hh] at hna
    simp at hna
  · intro o ho
    cases o <;> first | exact absurd rfl ho | rfl

/-- Resolving the paths again, against whichever folder, changes nothing. -/
theorem C25_resolving_twice (d d' p : Str) : resolveAgainst d' (resolveAgainst d p) = resolveAgainst d p := by
  rcases resolveAgainst_cases d p with h | h
  · rw [h]; rfl
  · generalize resolveAgainst d p = q at h ⊢
    have hq : q ≠ [] := by rintro rfl; simp [isAbs, hasPrefix] at h
    rw [resolveAgainst, if_neg hq, if_pos (isAbs_iff.mp h)]

/-- The final conversion to absolute paths does not touch paths that are already absolute. -/
theorem C25_absolute_paths_stay {cwd : Str} (c : Config)
    (hs : ∀ o, isPathOpt o = true → c.str o = [] ∨ isAbs (c.str o) = true)
    (hl : ∀ f ∈ c.list .fontFiles, f = [] ∨ isAbs f = true) :
    (makePathsAbsoluteToWorkingDir cwd c).str = c.str ∧ (makePathsAbsoluteToWorkingDir cwd c).list = c.list := by
  constructor
  · funext o
    rw [workingDir_str]
    split
    · rename_i h; exact toAbsolutePath_of (hs o h)
    · rfl
  · funext o
    rw [workingDir_list]
    split
    · rename_i h
      subst h
      conv_rhs => rw [← List.map_id (c.list .fontFiles)]
      apply List.map_congr_left
      intro f hf
      exact toAbsolutePath_of (hl f hf)
    · rfl

/-- An absolute path of a font in the config file does not stay as it is: it is looked for below the
folder of the config file. `/path/to/fontB.ttf` is the example of the documentation. -/
theorem C25_absolute_font_file_moves :
    (makePathsAbsolute b!"/w" b!"conf/config.json"
      { defaultConfig aMachine with list := fun _ => [b!"/path/to/fontB.ttf"] }).list .fontFiles =
    [b!"/w/conf/path/to/fontB.ttf"] := by
  decide +kernel

example : (makePathsAbsolute b!"/w" b!"conf/config.json"
      { defaultConfig aMachine with list := fun _ => [b!"../fontA.ttf"] }).list .fontFiles =
    [b!"/w/fontA.ttf"] := by
  decide +kernel

/-! ### C48: paths on the command line

The full claim is the theorem below also for the command `project`. There it is false
(`C48_project_moves_command_line_paths`). -/

/-- With `article` and `standalone` a path given on the command line is relative to the folder in which the
program was started. -/
theorem C48_command_line_path_partial {i : Invocation} {c : Config} (h : articleConfig i = .ok c)
    (hcwd : isAbs i.cwd = true) (o : StrOpt) (ho : isPathOpt o = true) {v : Str} (hv : i.cli.str o = some v)
    (hd : v ≠ (defaultConfig i.machine).str o) : c.str o = resolveAgainst i.cwd v := by
  unfold articleConfig at h
  cases h1 : afterConfigFile i with
  | ok c1 =>
    rw [h1] at h
    have := (merge_ok (by simpa using h)).1
    rw [this, workingDir_str, mergeFields_str]
    have hx : (decodeInto i.cli (defaultConfig i.machine)).str o = v := by simp [decodeInto, hv]
    rw [hx, if_pos hd, if_pos ho, takeOver, if_pos ho, toAbsolutePath_eq (p := v) hcwd]
    exact toAbsolutePath_of (resolveAgainst_cases _ _)
  | err => rw [h1] at h; simp at h
  | panic => rw [h1] at h; simp at h
  | fatal => rw [h1] at h; simp at h

/-- `wiki2book project --cache-dir cache books/book.json`, started in `/w`, uses `/w/books/cache` and not
`/w/cache`. -/
theorem C48_project_moves_command_line_paths :
    ∃ c, projectConfig ⟨aMachine, b!"/w", none, oneStr .cacheDir b!"cache"⟩ b!"books/book.json" Layer.empty
        = .ok c ∧ decide (c.str .cacheDir = b!"/w/books/cache" ∧
          resolveAgainst b!"/w" b!"cache" = b!"/w/cache") = true :=
  of_returns (by decide +kernel)

example : ∃ c, articleConfig ⟨aMachine, b!"/w", none, oneStr .cacheDir b!"cache"⟩ = .ok c ∧
    decide (c.str .cacheDir = b!"/w/cache") = true :=
  of_returns (by decide +kernel)

end Verif.Props
