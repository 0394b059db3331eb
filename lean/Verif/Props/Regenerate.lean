import Verif.Props.Offline

/-!
# What a run leaves in the cache (C77)
-/

namespace Verif.Props
open Verif.Go Verif.Model Verif.Spec Verif.Lemmas FSl

/-- Nothing is lost: articles, templates and names of formulas keep their content, images stay. With `all`, images keep their content,
too. -/
structure Kept (all : Bool) (dir : Str) (fs fs' : FS) : Prop where
  texts : ∀ folder ∈ [articleFolder, templateFolder, mathFolder], ∀ name, name ∉ [b!"", b!".", b!".."] → ∀ b,
    cachedBytes dir fs folder name = some b → cachedBytes dir fs' folder name = some b
  stay : ∀ name, name ∉ [b!"", b!".", b!".."] → (cachedBytes dir fs imageFolder name).isSome = true →
    (cachedBytes dir fs' imageFolder name).isSome = true
  images : all = true → ∀ name, name ∉ [b!"", b!".", b!".."] → ∀ b,
    cachedBytes dir fs imageFolder name = some b → cachedBytes dir fs' imageFolder name = some b

namespace Kept
variable {all : Bool} {dir : Str} {fs fs' fs'' : FS}

theorem refl : Kept all dir fs fs := ⟨fun _ _ _ _ _ h => h, fun _ _ h => h, fun _ _ _ _ h => h⟩

theorem trans (h1 : Kept all dir fs fs') (h2 : Kept all dir fs' fs'') : Kept all dir fs fs'' :=
  ⟨fun f hf n hn b h => h2.texts f hf n hn b (h1.texts f hf n hn b h), fun n hn h => h2.stay n hn (h1.stay n hn h),
    fun ha n hn b h => h2.images ha n hn b (h1.images ha n hn b h)⟩

theorem weaken (h : Kept true dir fs fs') : Kept all dir fs fs' := ⟨h.texts, h.stay, fun _ => h.images rfl⟩

theorem of_same (h : ∀ p, fs'.get p = fs.get p) : Kept all dir fs fs' := by
  have : ∀ folder name, cachedBytes dir fs' folder name = cachedBytes dir fs folder name := fun folder name => by
    unfold cachedBytes; rw [h]
  exact ⟨fun _ _ _ _ _ hb => by rw [this]; exact hb, fun _ _ hb => by rw [this]; exact hb, fun _ _ _ _ hb => by rw [this]; exact hb⟩

end Kept

/-- The folders of the run. -/
def runFolders : List Str := [articleFolder, templateFolder, mathFolder, imageFolder]

/-- No entry of these folders gets outdated. -/
structure Fine (e : WebEnv) (fs : FS) : Prop where
  wf : fs.WF
  young : ∀ folder ∈ runFolders, ∀ name, name ∉ [b!"", b!".", b!".."] → ∀ f,
    fs.get (getFilePathInCache e.cache.cacheDir folder name) = some f → ∀ k, e.clock k - f.mtime < (e.cache.maxAge + 1) * 60000000000

/-- The conditions on the first run: files can be read and written, nothing is evicted. -/
structure FirstRun (e : WebEnv) : Prop extends CacheUsable e where
  strategy : e.cache.strategy = .none
  walk : WalkOk e.cache
  digits : ∀ k, Digits (e.rnd k)
  command : ∀ args fs, (e.command args fs).ok = true → (e.command args fs).output.isSome = true

theorem folder_plain {folder : Str} (h : folder ∈ runFolders) : Plain folder ∧ folder ≠ b!".tmp" := by
  simp only [runFolders, List.mem_cons, List.not_mem_nil, or_false] at h
  rcases h with rfl | rfl | rfl | rfl <;> exact ⟨cache_folders_plain _ (by decide), by decide⟩

theorem FirstRun.key {e : WebEnv} (hu : FirstRun e) {folder name : Str} (hf : folder ∈ runFolders) (hn : name ∉ [b!"", b!".", b!".."]) :
    ValidKey e.cache folder name := ⟨(folder_plain hf).1, (folder_plain hf).2, hn, hu.dir⟩

/-- What a call does: it loses nothing, and its result and the files satisfy the condition. -/
def Does {α : Type} (all : Bool) (e : WebEnv) (pre : FS → Prop) (m : Web α) (post : FS → α → Prop) : Prop :=
  ∀ w, Fine e w.fs → pre w.fs → Fine e (m e w).2.fs ∧ Kept all e.cache.cacheDir w.fs (m e w).2.fs ∧
    ∀ a, (m e w).1 = .ok a → post (m e w).2.fs a

namespace Does
variable {α β : Type} {all : Bool} {e : WebEnv} {pre : FS → Prop} {m : Web α} {post : FS → α → Prop}

theorem same (h1 : ∀ w, (m e w).2.fs = w.fs) (h2 : ∀ w a, (m e w).1 = .ok a → pre w.fs → post w.fs a) : Does all e pre m post := by
  intro w hw hp
  rw [h1]
  exact ⟨hw, .refl, fun a ha => h2 w a ha hp⟩

theorem pure {a : α} (h : ∀ fs, pre fs → post fs a) : Does all e pre (Pure.pure a) post := by
  refine same (fun _ => rfl) fun w b hb hp => ?_
  cases hb
  exact h _ hp

theorem lift {r : Res α} (h : ∀ fs a, r = .ok a → pre fs → post fs a) : Does all e pre (Web.lift r) post := by
  refine same (fun _ => rfl) fun w b hb hp => ?_
  refine h _ b ?_ hp
  cases r with
  | ok a => cases hb; rfl
  | err => cases hb
  | panic => cases hb
  | fatal => cases hb

theorem orErr {r : Option α} (h : ∀ fs a, r = some a → pre fs → post fs a) : Does all e pre (Model.orErr r) post := by
  cases r with
  | none => exact same (fun _ => rfl) fun w b hb => by cases hb
  | some a => exact pure fun fs hp => h fs a rfl hp

theorem throwErr : Does all e pre (Web.throwErr : Web α) post := same (fun _ => rfl) fun w b hb => by cases hb

theorem bind {f : α → Web β} {post' : FS → β → Prop} (hm : Does all e pre m post) (hf : ∀ a, Does all e (fun fs => post fs a) (f a) post') :
    Does all e pre (m >>= f) post' := by
  intro w hw hp
  obtain ⟨h1, h2, h3⟩ := hm w hw hp
  rcases h : m e w with ⟨o, w1⟩
  rw [h] at h1 h2 h3
  cases o with
  | ok a =>
    rw [web_bind_ok h]
    obtain ⟨k1, k2, k3⟩ := hf a w1 h1 (h3 a rfl)
    exact ⟨k1, h2.trans k2, k3⟩
  | err => rw [web_bind_err h]; exact ⟨h1, h2, fun a ha => by cases ha⟩
  | panic => rw [web_bind_panic h]; exact ⟨h1, h2, fun a ha => by cases ha⟩
  | fatal => rw [web_bind_fatal h]; exact ⟨h1, h2, fun a ha => by cases ha⟩
  | waiting => rw [web_bind_waiting h]; exact ⟨h1, h2, fun a ha => by cases ha⟩

theorem weaken {pre' : FS → Prop} {post' : FS → α → Prop} (h : Does all e pre m post) (h1 : ∀ fs, pre' fs → pre fs)
    (h2 : ∀ fs a, post fs a → post' fs a) : Does all e pre' m post' := fun w hw hp =>
  ⟨(h w hw (h1 _ hp)).1, (h w hw (h1 _ hp)).2.1, fun a ha => h2 _ _ ((h w hw (h1 _ hp)).2.2 a ha)⟩

/-- What lasts stays true. -/
theorem frame {P : FS → Prop} (h : Does all e pre m post) (hP : ∀ fs fs', Kept all e.cache.cacheDir fs fs' → P fs → P fs') :
    Does all e (fun fs => pre fs ∧ P fs) m (fun fs a => post fs a ∧ P fs) := fun w hw hp =>
  ⟨(h w hw hp.1).1, (h w hw hp.1).2.1, fun a ha => ⟨(h w hw hp.1).2.2 a ha, hP _ _ (h w hw hp.1).2.1 hp.2⟩⟩

theorem attempt (h : Does all e pre m post) : Does all e pre (Web.attempt m) (fun fs r => ∀ a, r = some a → post fs a) := by
  intro w hw hp
  obtain ⟨h1, h2, h3⟩ := h w hw hp
  unfold Web.attempt
  rcases hm : m e w with ⟨o, w1⟩
  rw [hm] at h1 h2 h3
  cases o with
  | ok a =>
    refine ⟨h1, h2, fun r hr b hb => ?_⟩
    simp only [Outcome.ok.injEq] at hr
    subst hr
    cases hb
    exact h3 _ rfl
  | err =>
    refine ⟨h1, h2, fun r hr b hb => ?_⟩
    simp only [Outcome.ok.injEq] at hr
    subst hr
    cases hb
  | panic => exact ⟨h1, h2, fun r hr => by cases hr⟩
  | fatal => exact ⟨h1, h2, fun r hr => by cases hr⟩
  | waiting => exact ⟨h1, h2, fun r hr => by cases hr⟩

theorem whenW {m : Web Unit} {P : FS → Prop} {b : Bool} (h : Does all e P m fun fs _ => P fs) :
    Does all e P (Model.whenW b m) fun fs _ => P fs := by
  unfold Model.whenW
  split
  · exact h
  · exact pure fun _ h => h

end Does

/-- The result of a lookup. -/
theorem lookup_fine {e : WebEnv} (hu : FirstRun e) {folder name : Str} (hf : folder ∈ runFolders) (hn : name ∉ [b!"", b!".", b!".."])
    (w : World) (hw : Fine e w.fs) :
    ∃ hit, (getFile e.cache folder name (e.clock w.ops) noFaults w.ops w.fs).res = .ok (getFilePathInCache e.cache.cacheDir folder name, hit) ∧
      (∀ p, (getFile e.cache folder name (e.clock w.ops) noFaults w.ops w.fs).fs.get p = w.fs.get p) ∧
      (hit = true ↔ (w.fs.get (getFilePathInCache e.cache.cacheDir folder name)).isSome = true) ∧
      (getFile e.cache folder name (e.clock w.ops) noFaults w.ops w.fs).fs.WF := by
  have hv := hu.key hf hn
  have hwf := (lookup_facts hv hw.wf (lookup_state (ff := noFaults) (now := e.clock w.ops) hv w.ops)).1
  cases hg : w.fs.get (getFilePathInCache e.cache.cacheDir folder name) with
  | none =>
    obtain ⟨h1, h2⟩ := C07_lookup_missing e.cache folder name (e.clock w.ops) w.ops w.fs hv hg
    exact ⟨false, h1, fun p => by rw [h2], by simp, hwf⟩
  | some f =>
    obtain ⟨h1, -, h3⟩ := C07_lookup_existing e.cache folder name (e.clock w.ops) w.ops w.fs hv f hu.age hg
    obtain ⟨h1, h2⟩ := h1 (hw.young folder hf name hn f hg _)
    refine ⟨true, h1, fun p => ?_, by simp, hwf⟩
    by_cases hp : p = getFilePathInCache e.cache.cacheDir folder name
    · subst hp
      rw [h2, hg, hu.strategy]
      rfl
    · exact h3 p hp

theorem fine_same {e : WebEnv} {fs fs' : FS} (hw : Fine e fs) (hwf : fs'.WF) (h : ∀ p, fs'.get p = fs.get p) : Fine e fs' :=
  ⟨hwf, fun folder hf name hn f hg => hw.young folder hf name hn f (by rw [← h]; exact hg)⟩

theorem does_lookup {all : Bool} {e : WebEnv} (hu : FirstRun e) {folder name : Str} (hf : folder ∈ runFolders)
    (hn : name ∉ [b!"", b!".", b!".."]) :
    Does all e (fun _ => True) (Web.attempt (Web.files fun env now _ => getFile env folder name now)) (fun fs r =>
      r = some (getFilePathInCache e.cache.cacheDir folder name, true) ∨
      (r = some (getFilePathInCache e.cache.cacheDir folder name, false) ∧ fs.get (getFilePathInCache e.cache.cacheDir folder name) = none)) := by
  intro w hw _
  obtain ⟨hit, h1, h2, h3, h4⟩ := lookup_fine hu hf hn w hw
  have hrun : Web.attempt (Web.files fun env now _ => getFile env folder name now) e w =
      (.ok (some (getFilePathInCache e.cache.cacheDir folder name, hit)), { w with
        fs := (getFile e.cache folder name (e.clock w.ops) noFaults w.ops w.fs).fs,
        ops := (getFile e.cache folder name (e.clock w.ops) noFaults w.ops w.fs).step }) := by
    unfold Web.attempt Web.files
    simp only [hu.faults, h1]
    rfl
  rw [hrun]
  refine ⟨fine_same hw h4 h2, .of_same h2, fun r hr => ?_⟩
  simp only [Outcome.ok.injEq] at hr
  subst hr
  cases hit with
  | true => exact .inl rfl
  | false =>
    refine .inr ⟨rfl, ?_⟩
    simp only
    rw [h2]
    cases hg : w.fs.get (getFilePathInCache e.cache.cacheDir folder name) with
    | none => rfl
    | some f => rw [hg] at h3; simp at h3

theorem does_lookup_plain {all : Bool} {e : WebEnv} (hu : FirstRun e) {folder name : Str} (hf : folder ∈ runFolders)
    (hn : name ∉ [b!"", b!".", b!".."]) :
    Does all e (fun _ => True) (Web.files fun env now _ => getFile env folder name now) (fun fs r =>
      r.1 = getFilePathInCache e.cache.cacheDir folder name ∧
      ((r.2 = true ∧ (cachedBytes e.cache.cacheDir fs folder name).isSome = true) ∨
        (r.2 = false ∧ fs.get (getFilePathInCache e.cache.cacheDir folder name) = none))) := by
  intro w hw _
  obtain ⟨hit, h1, h2, h3, h4⟩ := lookup_fine hu hf hn w hw
  have hrun : (Web.files fun env now _ => getFile env folder name now) e w =
      (.ok (getFilePathInCache e.cache.cacheDir folder name, hit), { w with
        fs := (getFile e.cache folder name (e.clock w.ops) noFaults w.ops w.fs).fs,
        ops := (getFile e.cache folder name (e.clock w.ops) noFaults w.ops w.fs).step }) := by
    unfold Web.files
    simp only [hu.faults, h1]
    rfl
  rw [hrun]
  refine ⟨fine_same hw h4 h2, .of_same h2, fun r hr => ?_⟩
  simp only [Outcome.ok.injEq] at hr
  subst hr
  refine ⟨rfl, ?_⟩
  simp only [cachedBytes, h2, Option.isSome_map]
  cases hit with
  | true => exact .inl ⟨rfl, h3.mp rfl⟩
  | false =>
    refine .inr ⟨rfl, ?_⟩
    cases hg : w.fs.get (getFilePathInCache e.cache.cacheDir folder name) with
    | none => rfl
    | some f => rw [hg] at h3; simp at h3

/-- Storing a file that was not there. -/
theorem does_write {all : Bool} {e : WebEnv} (hu : FirstRun e) {folder name : Str} (hf : folder ∈ runFolders)
    (hn : name ∉ [b!"", b!".", b!".."]) (reader : Reader) :
    Does all e (fun fs => fs.get (getFilePathInCache e.cache.cacheDir folder name) = none)
      (Web.files fun env now rnd => cacheToFile env folder name reader rnd now)
      (fun fs p => p = getFilePathInCache e.cache.cacheDir folder name ∧ cachedBytes e.cache.cacheDir fs folder name = some reader.bytes) := by
  intro w hw hp
  have hv := hu.key hf hn
  have hs := write_state (ff := e.faults) (reader := reader) (now := e.clock w.ops) hv (hu.digits w.ops) hu.walk hw.wf w.ops
  have hother := C06_no_strategy_no_loss e.cache folder name reader (e.rnd w.ops) (e.clock w.ops) e.faults w.ops w.fs hu.walk hv
    (hu.digits _) hw.wf hu.strategy _ (List.mem_append_right _ (List.mem_singleton_self _))
  have hwf : (cacheToFile e.cache folder name reader (e.rnd w.ops) (e.clock w.ops) e.faults w.ops w.fs).fs.WF := by
    rcases hs with h | h
    · exact (mid_facts hv (hu.digits _) hw.wf h).1
    · exact (done_facts hv (hu.digits _) hw.wf h).1
  have hentry : ∀ f, (cacheToFile e.cache folder name reader (e.rnd w.ops) (e.clock w.ops) e.faults w.ops w.fs).fs.get
      (getFilePathInCache e.cache.cacheDir folder name) = some f → f.mtime = e.clock w.ops := by
    intro f hg
    rcases hs with h | h
    · rcases (mid_facts hv (hu.digits _) hw.wf h).2.2 _ (temp_ne_out hv (hu.digits _)).symm with h | h
      · rw [h, hp] at hg; cases hg
      · exact absurd hu.strategy h.2.1
    · rw [(done_facts hv (hu.digits _) hw.wf h).2.1] at hg
      cases hg
      rfl
  have hkeep : ∀ folder' ∈ runFolders, ∀ name', name' ∉ [b!"", b!".", b!".."] → ∀ f,
      w.fs.get (getFilePathInCache e.cache.cacheDir folder' name') = some f →
      (cacheToFile e.cache folder name reader (e.rnd w.ops) (e.clock w.ops) e.faults w.ops w.fs).fs.get
        (getFilePathInCache e.cache.cacheDir folder' name') = some f := by
    intro folder' hf' name' hn' f hg
    rw [hother _ (temp_ne_out (hu.key hf' hn') (hu.digits _)).symm, hg]
    intro heq
    rw [heq, hp] at hg
    cases hg
  have hbytes : ∀ folder' ∈ runFolders, ∀ name', name' ∉ [b!"", b!".", b!".."] → ∀ b,
      cachedBytes e.cache.cacheDir w.fs folder' name' = some b → cachedBytes e.cache.cacheDir
        (cacheToFile e.cache folder name reader (e.rnd w.ops) (e.clock w.ops) e.faults w.ops w.fs).fs folder' name' = some b := by
    intro folder' hf' name' hn' b hb
    obtain ⟨f, hg, rfl⟩ := Option.map_eq_some_iff.mp hb
    exact Option.map_eq_some_iff.mpr ⟨f, hkeep folder' hf' name' hn' f hg, rfl⟩
  refine ⟨⟨hwf, ?_⟩, ⟨fun folder' hf' name' hn' b hb => ?_, fun name' hn' hb => ?_, fun _ name' hn' b hb => ?_⟩, fun p hres => ?_⟩
  · intro folder' hf' name' hn' f hg k
    by_cases heq : getFilePathInCache e.cache.cacheDir folder' name' = getFilePathInCache e.cache.cacheDir folder name
    · rw [heq] at hg
      rw [hentry f hg]
      exact hu.clock _ _
    · have := hother _ (temp_ne_out (filename' := name) (hu.key hf' hn') (hu.digits _)).symm heq
      exact hw.young folder' hf' name' hn' f (by rw [← this]; exact hg) k
  · refine hbytes folder' ?_ name' hn' b hb
    simp only [List.mem_cons, List.not_mem_nil, or_false] at hf'
    simp only [runFolders, List.mem_cons, List.not_mem_nil, or_false]
    rcases hf' with h | h | h <;> simp [h]
  · obtain ⟨b, hb⟩ := Option.isSome_iff_exists.mp hb
    exact Option.isSome_iff_exists.mpr ⟨b, hbytes imageFolder (by simp [runFolders]) name' hn' b hb⟩
  · exact hbytes imageFolder (by simp [runFolders]) name' hn' b hb
  · have hres' : (cacheToFile e.cache folder name reader (e.rnd w.ops) (e.clock w.ops) e.faults w.ops w.fs).res = .ok p := by
      unfold Web.files at hres
      simp only at hres
      cases hc : (cacheToFile e.cache folder name reader (e.rnd w.ops) (e.clock w.ops) e.faults w.ops w.fs).res with
      | ok q => rw [hc] at hres; cases hres; rfl
      | err => rw [hc] at hres; cases hres
      | panic => rw [hc] at hres; cases hres
      | fatal => rw [hc] at hres; cases hres
    obtain ⟨c1, -, c3, -⟩ := C01_write_success _ _ _ _ _ _ _ _ _ hu.walk hv (hu.digits _) hw.wf _ hres'
    subst c1
    exact ⟨rfl, Option.map_eq_some_iff.mpr ⟨_, c3, rfl⟩⟩

theorem does_request {all : Bool} {e : WebEnv} {P : FS → Prop} (method url body : Str) :
    Does all e P (doRequest method url body) (fun fs _ => P fs) := .same (fun _ => rfl) fun _ _ _ h => h

theorem does_download {all : Bool} {e : WebEnv} (hu : FirstRun e) {folder name : Str} (hf : folder ∈ runFolders)
    (hn : name ∉ [b!"", b!".", b!".."]) (url : Str) :
    Does all e (fun _ => True) (downloadAndCache url folder name) (fun fs r =>
      r.1 = getFilePathInCache e.cache.cacheDir folder name ∧ (cachedBytes e.cache.cacheDir fs folder name).isSome = true) := by
  refine (does_lookup_plain hu hf hn).bind ?_
  rintro ⟨p, hit⟩
  cases hit with
  | true => exact .pure fun fs h => by simpa using h
  | false =>
    refine Does.bind (m := download url) (post := fun fs _ => fs.get (getFilePathInCache e.cache.cacheDir folder name) = none) ?_ fun body => ?_
    · refine ((does_request _ _ _).bind (post' := fun fs _ => fs.get (getFilePathInCache e.cache.cacheDir folder name) = none)
        fun r => .pure fun _ h => h).weaken (fun fs h => ?_) fun _ _ h => h
      simpa using h.2
    · refine (does_write hu hf hn body).bind fun q => .pure fun fs h => ⟨h.1, ?_⟩
      rw [h.2]; rfl

theorem does_read {all : Bool} {e : WebEnv} (hu : FirstRun e) {P : FS → Prop} (folder name : Str) :
    Does all e P (readBytes (getFilePathInCache e.cache.cacheDir folder name)) (fun fs b =>
      cachedBytes e.cache.cacheDir fs folder name = some b ∧ P fs) := by
  intro w hw hp
  cases hg : w.fs.get (getFilePathInCache e.cache.cacheDir folder name) with
  | none =>
    have : readBytes (getFilePathInCache e.cache.cacheDir folder name) e w = (.err, { w with ops := w.ops + 1 }) := by
      unfold readBytes Web.files FsM.readFile FsM.prim
      rw [hu.faults]
      simp [noFaults, hg, Web.ofRes]
    rw [this]
    exact ⟨hw, .refl, fun a ha => by cases ha⟩
  | some f =>
    rw [readBytes_ok hu.faults hg]
    refine ⟨hw, .refl, fun a ha => ?_⟩
    cases ha
    exact ⟨Option.map_eq_some_iff.mpr ⟨f, hg, rfl⟩, hp⟩

theorem article_name_ok (title : Str) : articleFile title ∉ [b!"", b!".", b!".."] := suffix_ok _ (by decide)

theorem does_article {all : Bool} {e : WebEnv} (hu : FirstRun e) (c : WikiConf) (host title : Str) :
    Does all e (fun _ => True) (downloadArticle c host title) (fun fs dto => dto.originalTitle = title ∧
      ∃ bytes, cachedBytes e.cache.cacheDir fs articleFolder (articleFile title) = some bytes ∧
        c.decodeArticle bytes = some (dto.title, dto.content)) := by
  refine (does_download hu (by simp [runFolders]) (article_name_ok title) _).bind ?_
  rintro ⟨path, fresh⟩
  refine Does.bind (post := fun fs b => cachedBytes e.cache.cacheDir fs articleFolder (articleFile title) = some b) ?_ fun bytes => ?_
  · intro w hw hp
    obtain ⟨rfl, -⟩ := hp
    exact ((does_read hu (P := fun _ => True) articleFolder (articleFile title)).weaken (fun _ h => h) fun _ _ h => h.1) w hw trivial
  · refine (Does.orErr (r := c.decodeArticle bytes) (post := fun fs a =>
      cachedBytes e.cache.cacheDir fs articleFolder (articleFile title) = some bytes ∧ c.decodeArticle bytes = some a) fun fs a ha hp => ⟨hp, ha⟩).bind ?_
    rintro ⟨t, text⟩
    exact .pure fun fs h => ⟨rfl, bytes, h⟩

theorem does_template {all : Bool} {e : WebEnv} (hu : FirstRun e) (c : WikiConf) (hs : SumsUsable c) (template : Str) :
    Does all e (fun _ => True) (evaluateTemplate c template (c.sha1hex template)) (fun fs text =>
      ∃ bytes, cachedBytes e.cache.cacheDir fs templateFolder (c.sha1hex template) = some bytes ∧ c.decodeTemplate bytes = some text) := by
  refine (does_download hu (by simp [runFolders]) (hs.sha1 _) _).bind ?_
  rintro ⟨path, fresh⟩
  refine Does.bind (post := fun fs b => cachedBytes e.cache.cacheDir fs templateFolder (c.sha1hex template) = some b) ?_ fun bytes => ?_
  · intro w hw hp
    obtain ⟨rfl, -⟩ := hp
    exact ((does_read hu (P := fun _ => True) templateFolder (c.sha1hex template)).weaken (fun _ h => h) fun _ _ h => h.1) w hw trivial
  · exact Does.orErr fun fs a ha hp => ⟨bytes, hp, ha⟩

/-- A text that is in the cache stays there. -/
theorem text_lasts {all : Bool} {e : WebEnv} {folder name : Str} (hf : folder ∈ [articleFolder, templateFolder, mathFolder])
    (hn : name ∉ [b!"", b!".", b!".."]) (bytes : Str) (fs fs' : FS) (h : Kept all e.cache.cacheDir fs fs')
    (hb : cachedBytes e.cache.cacheDir fs folder name = some bytes) : cachedBytes e.cache.cacheDir fs' folder name = some bytes :=
  h.texts folder hf name hn bytes hb

theorem does_mathName {all : Bool} {e : WebEnv} (hu : FirstRun e) (c : WikiConf) (hs : SumsUsable c) (formula : Str) :
    Does all e (fun _ => True) (getMathResource c formula) (fun fs name =>
      cachedBytes e.cache.cacheDir fs mathFolder (c.sha1hex formula) = some name) := by
  refine (does_lookup hu (folder := mathFolder) (by simp [runFolders]) (hs.sha1 formula)).bind fun r => ?_
  intro w hw hp
  rcases hp with rfl | ⟨rfl, hnone⟩
  · exact ((does_read hu (P := fun _ => True) mathFolder (c.sha1hex formula)).weaken (fun _ h => h) fun _ _ h => h.1) w hw trivial
  · have : Does all e (fun fs => fs.get (getFilePathInCache e.cache.cacheDir mathFolder (c.sha1hex formula)) = none)
        (requestMathResource c formula) (fun fs name => cachedBytes e.cache.cacheDir fs mathFolder (c.sha1hex formula) = some name) := by
      refine (does_request _ _ _).bind fun r => ?_
      show Does all e _ (if r.location = [] then Web.throwErr else
        (Web.files fun env now rnd => cacheToFile env mathFolder (c.sha1hex formula) ⟨r.location, true⟩ rnd now) >>= fun _ => Pure.pure r.location) _
      split
      · exact .throwErr
      · exact (does_write hu (by simp [runFolders]) (hs.sha1 _) _).bind fun _ => .pure fun _ h => h.2
    exact this w hw hnone

/-- An image that is in the cache keeps its content, or at least stays. -/
theorem image_lasts {e : WebEnv} {name : Str} (hn : name ∉ [b!"", b!".", b!".."]) {bytes : Str} {fs fs' : FS}
    (h : Kept true e.cache.cacheDir fs fs') (hb : cachedBytes e.cache.cacheDir fs imageFolder name = some bytes) :
    cachedBytes e.cache.cacheDir fs' imageFolder name = some bytes := h.images rfl name hn bytes hb

/-- The answers that a picture of a formula is made of. -/
def PictureFrom (decode : Str → Option SvgAttributes) (c : WikiConf) (dir formula : Str) (fs : FS) (r : Str × Str × Str × Str) : Prop :=
  ∃ name bytes a, cachedBytes dir fs mathFolder (c.sha1hex formula) = some name ∧
    cachedBytes dir fs imageFolder (name ++ b!".svg") = some bytes ∧ parseSvgAttributes decode bytes = some a ∧
    ((c.mathConverter = .none ∧
        r = (getPathRelativeToCache dir (getFilePathInCache dir imageFolder (name ++ b!".svg")), a.width, a.height, a.style)) ∨
      (c.mathConverter = .wikimedia ∧ (cachedBytes dir fs imageFolder (name ++ b!".png")).isSome = true ∧
        r = (getPathRelativeToCache dir (getFilePathInCache dir imageFolder (name ++ b!".png")), a.width, a.height, a.style)))

theorem pictureFrom_math {decode : Str → Option SvgAttributes} {c : WikiConf} {dir formula : Str} {fs : FS} {r : Str × Str × Str × Str}
    (h : PictureFrom decode c dir formula fs r) : (cachedMath decode c dir fs).math formula = .ok r := by
  obtain ⟨name, bytes, a, h1, h2, h3, h4⟩ := h
  have hp : cachedPicture decode c dir fs name = some r := by
    unfold cachedPicture
    rcases h4 with ⟨hc, rfl⟩ | ⟨hc, hs, rfl⟩
    · rw [show cachedBytes dir fs b!"images" (name ++ b!".svg") = some bytes from h2, hc]
      simp only [Option.bind_some, h3]
      rfl
    · obtain ⟨png, hs⟩ := Option.isSome_iff_exists.mp hs
      rw [show cachedBytes dir fs b!"images" (name ++ b!".svg") = some bytes from h2, hc,
        show cachedBytes dir fs b!"images" (name ++ b!".png") = some png from hs]
      simp only [Option.bind_some, h3]
      rfl
  unfold cachedMath
  simp only [show cachedBytes dir fs b!"math" (c.sha1hex formula) = some name from h1, Option.bind_some, hp]

theorem pictureFrom_lasts {e : WebEnv} {decode : Str → Option SvgAttributes} {c : WikiConf} (hs : SumsUsable c) {formula : Str} {fs fs' : FS}
    {r : Str × Str × Str × Str} (hk : Kept true e.cache.cacheDir fs fs') (h : PictureFrom decode c e.cache.cacheDir formula fs r) :
    PictureFrom decode c e.cache.cacheDir formula fs' r := by
  obtain ⟨name, bytes, a, h1, h2, h3, h4⟩ := h
  refine ⟨name, bytes, a, text_lasts (by simp) (hs.sha1 _) _ _ _ hk h1, image_lasts (suffix_ok _ (by decide)) hk h2, h3, ?_⟩
  rcases h4 with h4 | ⟨hc, hp, hr⟩
  · exact .inl h4
  · exact .inr ⟨hc, hk.stay _ (suffix_ok _ (by decide)) hp, hr⟩

theorem does_picture {e : WebEnv} (hu : FirstRun e) (c : WikiConf) (hs : SumsUsable c) (hconv : c.mathConverter ≠ .template)
    (decode : Str → Option SvgAttributes) (formula : Str) :
    Does true e (fun _ => True) (mathPicture decode c e.cache.cacheDir formula) (PictureFrom decode c e.cache.cacheDir formula) := by
  have hrender : Does true e (fun _ => True) (renderMath c e.cache.cacheDir formula) (fun fs r =>
      ∃ name, cachedBytes e.cache.cacheDir fs mathFolder (c.sha1hex formula) = some name ∧
        r.1 = getFilePathInCache e.cache.cacheDir imageFolder (name ++ b!".svg") ∧
        ((c.mathConverter = .none ∧ r.2 = getFilePathInCache e.cache.cacheDir imageFolder (name ++ b!".svg")) ∨
          (c.mathConverter = .wikimedia ∧ (cachedBytes e.cache.cacheDir fs imageFolder (name ++ b!".png")).isSome = true ∧
            r.2 = getFilePathInCache e.cache.cacheDir imageFolder (name ++ b!".png")))) := by
    refine (does_mathName hu c hs formula).bind fun name => ?_
    have hsvg := (does_download (all := true) hu (folder := imageFolder) (by simp [runFolders]) (suffix_ok name (suffix := b!".svg") (by decide))
      (c.mathApi ++ b!"/render/svg/" ++ name)).frame
      (P := fun fs => cachedBytes e.cache.cacheDir fs mathFolder (c.sha1hex formula) = some name)
      (fun fs fs' hk h => text_lasts (by simp) (hs.sha1 _) _ _ _ hk h)
    refine (hsvg.weaken (fun _ h => ⟨trivial, h⟩) fun _ _ h => h).bind ?_
    rintro ⟨svg, fresh⟩
    rcases hc : c.mathConverter with _ | _ | _ | _
    · exact .pure fun fs h => ⟨name, h.2, h.1.1, .inl ⟨rfl, h.1.1⟩⟩
    · have hpng := (does_download (all := true) hu (folder := imageFolder) (by simp [runFolders]) (suffix_ok name (suffix := b!".png") (by decide))
        (c.mathApi ++ b!"/render/png/" ++ name)).frame
        (P := fun fs => svg = getFilePathInCache e.cache.cacheDir imageFolder (name ++ b!".svg") ∧
          cachedBytes e.cache.cacheDir fs mathFolder (c.sha1hex formula) = some name)
        (fun fs fs' hk h => ⟨h.1, text_lasts (by simp) (hs.sha1 _) _ _ _ hk h.2⟩)
      refine (hpng.weaken (fun _ h => ⟨trivial, h.1.1, h.2⟩) fun _ _ h => h).bind ?_
      rintro ⟨png, fresh⟩
      exact .pure fun fs h => ⟨name, h.2.2, h.2.1, .inr ⟨rfl, h.1.2, h.1.1⟩⟩
    · exact absurd hc hconv
    · exact .throwErr
  refine hrender.bind ?_
  rintro ⟨svg, png⟩
  intro w hw hp
  obtain ⟨name, h1, rfl, h3⟩ := hp
  have hread : Does true e (fun fs => cachedBytes e.cache.cacheDir fs mathFolder (c.sha1hex formula) = some name ∧
        ((c.mathConverter = .none ∧ png = getFilePathInCache e.cache.cacheDir imageFolder (name ++ b!".svg")) ∨
          (c.mathConverter = .wikimedia ∧ (cachedBytes e.cache.cacheDir fs imageFolder (name ++ b!".png")).isSome = true ∧
            png = getFilePathInCache e.cache.cacheDir imageFolder (name ++ b!".png"))))
      (readSvgAttributes decode (getFilePathInCache e.cache.cacheDir imageFolder (name ++ b!".svg")) >>= fun a =>
        Pure.pure (getPathRelativeToCache e.cache.cacheDir png, a.width, a.height, a.style))
      (PictureFrom decode c e.cache.cacheDir formula) := by
    refine Does.bind (post := fun fs a => ∃ bytes, cachedBytes e.cache.cacheDir fs imageFolder (name ++ b!".svg") = some bytes ∧
        parseSvgAttributes decode bytes = some a ∧ cachedBytes e.cache.cacheDir fs mathFolder (c.sha1hex formula) = some name ∧
        ((c.mathConverter = .none ∧ png = getFilePathInCache e.cache.cacheDir imageFolder (name ++ b!".svg")) ∨
          (c.mathConverter = .wikimedia ∧ (cachedBytes e.cache.cacheDir fs imageFolder (name ++ b!".png")).isSome = true ∧
            png = getFilePathInCache e.cache.cacheDir imageFolder (name ++ b!".png")))) ?_ ?_
    · exact (does_read hu imageFolder (name ++ b!".svg")).bind fun bytes => .orErr fun fs a ha h => ⟨bytes, h.1, ha, h.2⟩
    · intro a
      refine .pure ?_
      rintro fs ⟨bytes, k1, k2, k3, k4⟩
      refine ⟨name, bytes, a, k3, k1, k2, ?_⟩
      rcases k4 with ⟨k4, rfl⟩ | ⟨k4, k5, rfl⟩
      · exact .inl ⟨k4, rfl⟩
      · exact .inr ⟨k4, k5, rfl⟩
  exact hread w hw ⟨h1, h3⟩

/-! ### Images -/

/-- Writing an image. -/
theorem put_image {e : WebEnv} (hu : FirstRun e) {name : Str} (hn : name ∉ [b!"", b!".", b!".."]) {fs : FS} (hw : Fine e fs) (content : Str) (k : Nat) :
    Fine e (fs.put (getFilePathInCache e.cache.cacheDir imageFolder name) ⟨content, e.clock k⟩) ∧
    Kept false e.cache.cacheDir fs (fs.put (getFilePathInCache e.cache.cacheDir imageFolder name) ⟨content, e.clock k⟩) := by
  refine ⟨⟨WF_put hw.wf _ _, ?_⟩, ?_, ?_, fun h => by cases h⟩
  · intro folder' hf' name' hn' f hg l
    by_cases heq : getFilePathInCache e.cache.cacheDir folder' name' = getFilePathInCache e.cache.cacheDir imageFolder name
    · rw [heq, get_put_self] at hg
      cases hg
      exact hu.clock _ _
    · rw [get_put_ne heq] at hg
      exact hw.young folder' hf' name' hn' f hg l
  · intro folder' hf' name' hn' b hb
    unfold cachedBytes at hb ⊢
    rw [get_put_ne, hb]
    intro heq
    have hpl : folder' ∈ runFolders := by
      simp only [List.mem_cons, List.not_mem_nil, or_false] at hf'
      rcases hf' with h | h | h <;> simp [runFolders, h]
    have := (C09_entry_paths_injective _ _ _ _ _ (folder_plain hpl).1 (folder_plain (by simp [runFolders])).1 hn' hn heq).1
    subst this
    revert hf'
    decide
  · intro name' hn' hb
    unfold cachedBytes at hb ⊢
    by_cases heq : getFilePathInCache e.cache.cacheDir imageFolder name' = getFilePathInCache e.cache.cacheDir imageFolder name
    · rw [heq, get_put_self]; rfl
    · rw [get_put_ne heq]; exact hb

theorem does_execute {e : WebEnv} (hu : FirstRun e) {name : Str} (hn : name ∉ [b!"", b!".", b!".."]) (args : List Str) (d : Str) :
    Does false e (fun _ => True) (execute args d (getFilePathInCache e.cache.cacheDir imageFolder name)) (fun fs _ =>
      (cachedBytes e.cache.cacheDir fs imageFolder name).isSome = true) := by
  intro w hw _
  unfold execute
  simp only
  cases ho : (e.command args w.fs).output with
  | none =>
    refine ⟨hw, .refl, fun a ha => ?_⟩
    have hok : (e.command args w.fs).ok = true := by
      by_contra hne
      rw [if_neg hne] at ha
      cases ha
    have := hu.command args w.fs hok
    rw [ho] at this
    cases this
  | some content =>
    obtain ⟨h1, h2⟩ := put_image hu hn hw content w.ops
    refine ⟨h1, h2, fun a ha => ?_⟩
    simp only [cachedBytes, get_put_self]
    rfl

theorem does_viewbox {e : WebEnv} (hu : FirstRun e) (c : WikiConf) {name : Str} (hn : name ∉ [b!"", b!".", b!".."]) :
    Does false e (fun _ => True) (svgToViewbox c (getFilePathInCache e.cache.cacheDir imageFolder name)) (fun _ _ => True) := by
  intro w hw _
  unfold svgToViewbox
  split
  · split
    · split
      · exact ⟨hw, .refl, fun _ _ => trivial⟩
      · obtain ⟨h1, h2⟩ := put_image hu hn hw _ w.ops
        exact ⟨h1, h2, fun _ _ => trivial⟩
    · exact ⟨hw, .refl, fun _ _ => trivial⟩
  · exact ⟨hw, .refl, fun _ _ => trivial⟩

/-- The page about an image is in the cache, and its title has a colon. -/
def AboutCached (c : WikiConf) (dir name : Str) (fs : FS) : Prop :=
  ∃ bytes title text, cachedBytes dir fs b!"articles" (underscores (b!"File:" ++ name) ++ b!".json") = some bytes ∧
    c.decodeArticle bytes = some (title, text) ∧ (0x3A : Byte) ∈ title

theorem about_lasts {all : Bool} {e : WebEnv} {c : WikiConf} {name : Str} (fs fs' : FS) (hk : Kept all e.cache.cacheDir fs fs')
    (h : AboutCached c e.cache.cacheDir name fs) : AboutCached c e.cache.cacheDir name fs' := by
  obtain ⟨bytes, title, text, h1, h2⟩ := h
  exact ⟨bytes, title, text, hk.texts articleFolder (by simp) _ (suffix_ok _ (by decide)) _ h1, h2⟩

theorem does_downloadImage {e : WebEnv} (hu : FirstRun e) (c : WikiConf) (host image name : Str) (hnm : NamedBy image name)
    (hn : name ∉ [b!"", b!".", b!".."]) :
    Does false e (fun _ => True) (downloadImage c host image) (fun fs r =>
      r.1 = getFilePathInCache e.cache.cacheDir imageFolder (underscores name) ∧
      (cachedBytes e.cache.cacheDir fs imageFolder (underscores name)).isSome = true ∧ AboutCached c e.cache.cacheDir name fs) := by
  refine Does.bind (post := fun fs n => n = name) (.lift fun fs a ha _ => ?_) fun n => ?_
  · rw [afterColon_of_named hnm] at ha
    cases ha
    rfl
  intro w hw hp
  subst hp
  have hrest := (does_article (all := false) hu c host (b!"File:" ++ n)).bind
    (f := fun article => Web.lift (afterColon article.originalTitle) >>= fun originalName =>
      Web.lift (afterColon article.title) >>= fun actualName =>
      Web.lift (imageUrl c host (underscores actualName)) >>= fun url =>
      downloadAndCache url imageFolder (underscores originalName) >>= fun r =>
      whenW (r.2 && c.svgSizeToViewbox && ext r.1 == b!".svg") (svgToViewbox c r.1) >>= fun _ => Pure.pure (r.1, r.2))
    (post' := fun fs r =>
      r.1 = getFilePathInCache e.cache.cacheDir imageFolder (underscores n) ∧
      (cachedBytes e.cache.cacheDir fs imageFolder (underscores n)).isSome = true ∧ AboutCached c e.cache.cacheDir n fs) (by
    intro article
    refine Does.bind (post := fun fs o => o = n ∧ ∃ bytes, cachedBytes e.cache.cacheDir fs articleFolder (articleFile (b!"File:" ++ n)) = some bytes ∧
        c.decodeArticle bytes = some (article.title, article.content)) (.lift fun fs a ha h => ?_) fun o => ?_
    · rw [h.1, afterColon_file hnm.1] at ha
      cases ha
      exact ⟨rfl, h.2⟩
    refine Does.bind (post := fun fs _ => o = n ∧ AboutCached c e.cache.cacheDir n fs) (.lift fun fs a ha h => ?_) fun actual => ?_
    · refine ⟨h.1, ?_⟩
      obtain ⟨bytes, h1, h2⟩ := h.2
      refine ⟨bytes, _, _, h1, h2, ?_⟩
      obtain ⟨-, pre, -, hx | ⟨rest, hx⟩⟩ := afterColon_named ha <;> rw [hx] <;> simp
    refine Does.bind (post := fun fs _ => o = n ∧ AboutCached c e.cache.cacheDir n fs) (.lift fun fs a ha h => h) fun url => ?_
    intro w hw hp
    obtain ⟨rfl, hp⟩ := hp
    have hdl := (does_download (all := false) hu (folder := imageFolder) (by simp [runFolders]) (underscores_ok hn) url).frame
      (P := AboutCached c e.cache.cacheDir o) (fun fs fs' hk h => about_lasts fs fs' hk h)
    have := hdl.bind (f := fun r => whenW (r.2 && c.svgSizeToViewbox && ext r.1 == b!".svg") (svgToViewbox c r.1) >>= fun _ => Pure.pure (r.1, r.2))
      (post' := fun fs r => r.1 = getFilePathInCache e.cache.cacheDir imageFolder (underscores o) ∧
        (cachedBytes e.cache.cacheDir fs imageFolder (underscores o)).isSome = true ∧ AboutCached c e.cache.cacheDir o fs) (by
      rintro ⟨path, fresh⟩
      refine Does.bind (post := fun fs _ => path = getFilePathInCache e.cache.cacheDir imageFolder (underscores o) ∧
        (cachedBytes e.cache.cacheDir fs imageFolder (underscores o)).isSome = true ∧ AboutCached c e.cache.cacheDir o fs) ?_ fun _ => .pure fun _ h => h
      intro w hw hp
      obtain ⟨⟨rfl, h1⟩, h2⟩ := hp
      have hv := (does_viewbox hu c (underscores_ok hn)).frame
        (P := fun fs => (cachedBytes e.cache.cacheDir fs imageFolder (underscores o)).isSome = true ∧ AboutCached c e.cache.cacheDir o fs)
        (fun fs fs' hk h => ⟨hk.stay _ (underscores_ok hn) h.1, about_lasts fs fs' hk h.2⟩)
      have hv' := hv.weaken (pre' := fun fs => (cachedBytes e.cache.cacheDir fs imageFolder (underscores o)).isSome = true ∧
        AboutCached c e.cache.cacheDir o fs) (post' := fun fs _ => (cachedBytes e.cache.cacheDir fs imageFolder (underscores o)).isSome = true ∧
        AboutCached c e.cache.cacheDir o fs) (fun _ h => ⟨trivial, h⟩) (fun _ _ h => h.2)
      exact ((Does.whenW hv').weaken (post' := fun fs _ => getFilePathInCache e.cache.cacheDir imageFolder (underscores o) =
          getFilePathInCache e.cache.cacheDir imageFolder (underscores o) ∧
          (cachedBytes e.cache.cacheDir fs imageFolder (underscores o)).isSome = true ∧ AboutCached c e.cache.cacheDir o fs)
        (fun _ h => h) (fun _ _ h => ⟨rfl, h⟩)) w hw ⟨h1, h2⟩)
    exact this w hw ⟨trivial, hp⟩)
  exact hrest w hw trivial

theorem imageCached_lasts {all : Bool} {e : WebEnv} {c : WikiConf} {image : Str} (fs fs' : FS) (hk : Kept all e.cache.cacheDir fs fs')
    (h : ImageCached c e.cache.cacheDir fs image) : ImageCached c e.cache.cacheDir fs' image := by
  obtain ⟨name, h1, hn, h2, h3, h4⟩ := h
  refine ⟨name, h1, hn, about_lasts fs fs' hk h2, hk.stay _ (underscores_ok hn) h3, ?_⟩
  rcases h4 with h4 | h4
  · exact .inl h4
  · right
    obtain ⟨e1, -, e3⟩ := png_entry (cacheDir := e.cache.cacheDir) (cache_folders_plain imageFolder (by decide)) (underscores_ok hn)
    unfold pngPath at e1
    have := hk.stay (underscores name ++ b!".png") e3
    unfold cachedBytes at this
    rw [Option.isSome_map, Option.isSome_map, ← e1] at this
    exact this h4

theorem does_postProcess {e : WebEnv} (hu : FirstRun e) (c : WikiConf) (name : Str) (hn : name ∉ [b!"", b!".", b!".."]) (fresh : Bool) :
    Does false e (fun _ => True) (postProcessImage c e.cache.cacheDir (getFilePathInCache e.cache.cacheDir imageFolder (underscores name)) fresh)
      (fun fs _ => conversionFor c (getFilePathInCache e.cache.cacheDir b!"images" (underscores name)) = [] ∨
        (fs.get (getFilePathInCache e.cache.cacheDir b!"images" (underscores name) ++ b!".png")).isSome = true) := by
  obtain ⟨e1, -, e3⟩ := png_entry (cacheDir := e.cache.cacheDir) (cache_folders_plain imageFolder (by decide)) (underscores_ok hn)
  have hget : ∀ fs : FS, (fs.get (getFilePathInCache e.cache.cacheDir b!"images" (underscores name) ++ b!".png")).isSome =
      (cachedBytes e.cache.cacheDir fs imageFolder (underscores name ++ b!".png")).isSome := by
    intro fs
    unfold cachedBytes
    rw [Option.isSome_map, ← e1]
    rfl
  simp only [hget]
  have hconv : Does false e (fun _ => True) (convertIfNeeded (getFilePathInCache e.cache.cacheDir imageFolder (underscores name)) fresh
      (conversionFor c (getFilePathInCache e.cache.cacheDir imageFolder (underscores name)))) (fun fs r =>
      (∃ n, n ∉ [b!"", b!".", b!".."] ∧ r.1 = getFilePathInCache e.cache.cacheDir imageFolder n) ∧
      (conversionFor c (getFilePathInCache e.cache.cacheDir b!"images" (underscores name)) = [] ∨
        (cachedBytes e.cache.cacheDir fs imageFolder (underscores name ++ b!".png")).isSome = true)) := by
    unfold convertIfNeeded
    split
    · rw [e1]
      refine Does.bind (post := fun fs b => b = true →
        (cachedBytes e.cache.cacheDir fs imageFolder (underscores name ++ b!".png")).isSome = true) ?_ fun b => ?_
      · refine .same (fun _ => rfl) fun w b hb _ hbt => ?_
        subst hbt
        unfold pathExists at hb
        injection hb with hb
        unfold cachedBytes
        rw [Option.isSome_map]
        exact hb
      · cases b with
        | true => exact .pure fun fs h => ⟨⟨_, e3, rfl⟩, .inr (h rfl)⟩
        | false =>
          refine (((does_execute hu e3 _ _).weaken (fun _ _ => trivial) fun _ _ h => h).bind fun _ => .pure fun fs h => ⟨⟨_, e3, rfl⟩, .inr h⟩)
    · rename_i hc
      exact .pure fun fs _ => ⟨⟨_, underscores_ok hn, rfl⟩, .inl (Decidable.not_not.mp hc)⟩
  refine hconv.bind ?_
  rintro ⟨path, f⟩
  intro w hw hp
  obtain ⟨⟨n, hn', rfl⟩, hp⟩ := hp
  have hx := (does_execute hu hn' (commandArgs (commandLine c.commandImageProcessing (getFilePathInCache e.cache.cacheDir imageFolder n)
      (getFilePathInCache e.cache.cacheDir imageFolder n))) e.cache.cacheDir).frame (P := fun fs =>
      conversionFor c (getFilePathInCache e.cache.cacheDir b!"images" (underscores name)) = [] ∨
        (cachedBytes e.cache.cacheDir fs imageFolder (underscores name ++ b!".png")).isSome = true)
    (fun fs fs' hk h => h.imp id fun h => hk.stay _ e3 h)
  exact (Does.whenW (hx.weaken (fun _ h => ⟨trivial, h⟩) fun _ _ h => h.2)) w hw hp

theorem does_image {e : WebEnv} (hu : FirstRun e) (c : WikiConf) (image name : Str) (hnm : NamedBy image name)
    (hn : name ∉ [b!"", b!".", b!".."]) (hosts : List Str) (failed : Bool) (hne : hosts ≠ [] ∨ failed = true) :
    Does false e (fun _ => True) (tryHosts c e.cache.cacheDir image hosts failed) (fun fs _ => ImageCached c e.cache.cacheDir fs image) := by
  induction hosts generalizing failed with
  | nil =>
    rw [tryHosts, if_pos (by simpa using hne)]
    exact .throwErr
  | cons host hosts ih =>
    rw [tryHosts]
    refine (does_downloadImage hu c host image name hnm hn).attempt.bind fun r => ?_
    rcases r with _ | ⟨path, fresh⟩
    · exact (ih true (.inr rfl)).weaken (fun _ _ => trivial) fun _ _ h => h
    · intro w hw hp
      obtain ⟨hp, h2, h3⟩ := hp _ rfl
      simp only at hp
      subst hp
      have := (does_postProcess hu c name hn fresh).frame (P := fun fs =>
          (cachedBytes e.cache.cacheDir fs imageFolder (underscores name)).isSome = true ∧ AboutCached c e.cache.cacheDir name fs)
        (fun fs fs' hk h => ⟨hk.stay _ (underscores_ok hn) h.1, about_lasts fs fs' hk h.2⟩)
      exact (this.weaken (post' := fun fs _ => ImageCached c e.cache.cacheDir fs image) (fun _ h => h)
        fun fs _ h => ⟨name, hnm, hn, h.2.2, h.2.1, h.1⟩) w hw ⟨trivial, h2, h3⟩

theorem does_images {e : WebEnv} (hu : FirstRun e) (c : WikiConf) (hh : c.imageArticleHosts ≠ []) (images : List Str)
    (hn : ∀ image ∈ images, ∃ name, NamedBy image name ∧ name ∉ [b!"", b!".", b!".."]) :
    Does false e (fun _ => True) (downloadImages c e.cache.cacheDir images) (fun fs _ => ∀ image ∈ images, ImageCached c e.cache.cacheDir fs image) := by
  induction images with
  | nil => exact .pure fun _ _ => by simp
  | cons image images ih =>
    obtain ⟨name, h1, h2⟩ := hn image List.mem_cons_self
    refine (does_image hu c image name h1 h2 _ false (.inl hh)).bind fun _ => ?_
    have := (ih fun i hi => hn i (List.mem_cons_of_mem _ hi)).frame (P := fun fs => ImageCached c e.cache.cacheDir fs image) imageCached_lasts
    exact this.weaken (fun _ h => ⟨trivial, h⟩) fun fs _ h i hi => by
      rcases List.mem_cons.mp hi with rfl | hi
      · exact h.2
      · exact h.1 i hi

/-! ### The page -/

/-- What a part of the run does: it loses nothing, and its result is the one that the cache gives, now and later. -/
def RunDoes {α : Type} (all : Bool) (e : WebEnv) (m : Model.Run α) (r : FS → Option (Res α)) : Prop :=
  ∀ w o w', Fine e w.fs → m e w = some (o, w') → Fine e w'.fs ∧ Kept all e.cache.cacheDir w.fs w'.fs ∧
    ∀ a, o = .ok a → ∀ fs, Kept all e.cache.cacheDir w'.fs fs → r fs = some (.ok a)

namespace RunDoes
variable {α β : Type} {all : Bool} {e : WebEnv}

theorem pure (a : α) : RunDoes all e (Pure.pure a) fun _ => some (.ok a) := by
  intro w o w' hw h
  cases h
  refine ⟨hw, .refl, fun b hb _ _ => ?_⟩
  cases hb
  rfl

theorem result (r : Option (Res α)) : RunDoes all e (Run.pureResult r) fun _ => r := by
  intro w o w' hw h
  rcases r with _ | a | _ | _ | _
  · cases h
  all_goals
    cases h
    refine ⟨hw, .refl, fun b hb _ _ => ?_⟩
    cases hb
  rfl

theorem call {m : Web α} {post : FS → α → Prop} {r : FS → Res α} (h : Does all e (fun _ => True) m post)
    (hr : ∀ fs fs' a, Kept all e.cache.cacheDir fs fs' → post fs a → r fs' = .ok a) : RunDoes all e (Run.call m) fun fs => some (r fs) := by
  intro w o w' hw hm
  obtain ⟨h1, h2, h3⟩ := h w hw trivial
  have hm : m e w = (o, w') := Option.some.inj hm
  rw [hm] at h1 h2 h3
  exact ⟨h1, h2, fun a ha fs hk => congrArg some (hr _ _ a hk (h3 a ha))⟩

theorem bind {m : Model.Run α} {f : α → Model.Run β} {r : FS → ExpM α} {g : FS → α → ExpM β} (hm : RunDoes all e m r)
    (hf : ∀ a, RunDoes all e (f a) fun fs => g fs a) : RunDoes all e (m >>= f) fun fs => (r fs >>= g fs : ExpM β) := by
  intro w o w' hw h
  rcases hmw : m e w with _ | ⟨o1, w1⟩
  · have : (m >>= f) e w = none := by
      show (match m e w with
        | none => none
        | some (.ok a, w') => f a e w'
        | some (.err, w') => some (.err, w')
        | some (.panic, w') => some (.panic, w')
        | some (.fatal, w') => some (.fatal, w')
        | some (.waiting, w') => some (.waiting, w')) = _
      rw [hmw]
    rw [this] at h
    cases h
  · obtain ⟨h1, h2, h3⟩ := hm w o1 w1 hw hmw
    have hrun : (m >>= f) e w = (match some (o1, w1) with
        | none => none
        | some (.ok a, w') => f a e w'
        | some (.err, w') => some (.err, w')
        | some (.panic, w') => some (.panic, w')
        | some (.fatal, w') => some (.fatal, w')
        | some (.waiting, w') => some (.waiting, w')) := by rw [← hmw]; rfl
    rw [hrun] at h
    cases o1 with
    | ok a =>
      obtain ⟨k1, k2, k3⟩ := hf a w1 o w' h1 h
      refine ⟨k1, h2.trans k2, fun b hb fs hk => ?_⟩
      have e1 := h3 a rfl fs (k2.trans hk)
      have e2 := k3 b hb fs hk
      show (r fs >>= g fs : ExpM β) = _
      rw [show r fs = (some (.ok a) : ExpM α) from e1]
      exact e2
    | err => cases h; exact ⟨h1, h2, fun b hb => by cases hb⟩
    | panic => cases h; exact ⟨h1, h2, fun b hb => by cases hb⟩
    | fatal => cases h; exact ⟨h1, h2, fun b hb => by cases hb⟩
    | waiting => cases h; exact ⟨h1, h2, fun b hb => by cases hb⟩

theorem same {m : Model.Run α} {r r' : FS → Option (Res α)} (h : RunDoes all e m r) (hr : ∀ fs, r fs = r' fs) : RunDoes all e m r' := by
  rwa [show r' = r from funext fun fs => (hr fs).symm]

end RunDoes

theorem does_mapM {α β : Type} {all : Bool} {e : WebEnv} {f : α → Model.Run β} {g : FS → α → ExpM β} (h : ∀ a, RunDoes all e (f a) fun fs => g fs a)
    (l : List α) : RunDoes all e (Run.mapM f l) fun fs => ExpM.mapM (g fs) l := by
  induction l with
  | nil => exact .pure _
  | cons a l ih => exact (h a).bind (g := fun fs b => (ExpM.mapM (g fs) l >>= fun bs => (some (.ok (b :: bs)) : ExpM _) : ExpM _)) fun b => ih.bind fun _ => .pure _

theorem does_loop {all : Bool} {e : WebEnv} {f : Str → Model.Run Str} {g : FS → Str → ExpM Str} (h : ∀ key, RunDoes all e (f key) fun fs => g fs key)
    (content rest : Str) (skip i : Nat) (segment : Option Nat) (new : Str) :
    RunDoes all e (expandLoopRun f content rest skip i segment new) fun fs => expandLoop expandSimpleString (g fs) content rest skip i segment new := by
  induction rest generalizing skip i segment new with
  | nil => simp only [expandLoopRun, expandLoop]; exact .pure _
  | cons c t ih =>
    cases skip with
    | succ skip => simp only [expandLoopRun, expandLoop]; exact ih _ _ _ _
    | zero =>
      simp only [expandLoopRun, expandLoop]
      split
      · rcases findClose content (i + 2) b!"$$" b!"$$" with _ | stop
        · exact .result _
        · exact (h _).bind fun x => ih _ _ _ _
      · exact ih _ _ _ _

theorem does_table {all : Bool} {e : WebEnv} {f : Str → Model.Run Str} {g : FS → Str → ExpM Str} (h : ∀ s, RunDoes all e (f s) fun fs => g fs s)
    (rows : List (List TableCol)) (caption : Str) : RunDoes all e (expandTableRun f rows caption) fun fs => expandTable (g fs) rows caption := by
  have hcol : ∀ col, RunDoes all e (expandColRun f col) fun fs => expandCol (g fs) col := fun col => (h _).bind fun _ => .pure _
  have hrow : ∀ row, RunDoes all e (expandRowRun f row) fun fs => expandRow (g fs) row := fun row => (does_mapM hcol row).bind fun _ => .pure _
  exact (does_mapM hrow rows).bind (g := fun fs rows => (g fs caption >>= fun caption => (some (.ok (b!"<div class=\"figure\">\n<table>\n" ++ join b!"\n" rows ++ b!"\n</table>" ++
    (b!"\n<div class=\"caption\">\n" ++ caption ++ b!"\n</div>") ++ b!"\n</div>")) : ExpM Str) : ExpM Str)) fun _ => (h caption).bind fun _ => .pure _

mutual
theorem does_list {all : Bool} {e : WebEnv} {f : Str → Model.Run Str} {g : FS → Str → ExpM Str} (h : ∀ s, RunDoes all e (f s) fun fs => g fs s) :
    (l : ListTok) → RunDoes all e (expandListRun f l) fun fs => expandList (g fs) l
  | .mk kind items => by
    simp only [expandListRun, expandList]
    exact (does_items h items).bind fun _ => .pure _
theorem does_items {all : Bool} {e : WebEnv} {f : Str → Model.Run Str} {g : FS → Str → ExpM Str} (h : ∀ s, RunDoes all e (f s) fun fs => g fs s) :
    (l : List ItemTok) → RunDoes all e (expandItemsRun f l) fun fs => expandItems (g fs) l
  | [] => by simp only [expandItemsRun, expandItems]; exact .pure _
  | item :: rest => by
    simp only [expandItemsRun, expandItems]
    exact (does_item h item).bind (g := fun fs x => (expandItems (g fs) rest >>= fun xs => (some (.ok (x :: xs)) : ExpM _) : ExpM _))
      fun _ => (does_items h rest).bind fun _ => .pure _
theorem does_item {all : Bool} {e : WebEnv} {f : Str → Model.Run Str} {g : FS → Str → ExpM Str} (h : ∀ s, RunDoes all e (f s) fun fs => g fs s) :
    (l : ItemTok) → RunDoes all e (expandItemRun f l) fun fs => expandItem (g fs) l
  | .mk type content subLists => by
    simp only [expandItemRun, expandItem]
    exact (h _).bind (g := fun fs x => (expandSubLists (g fs) subLists >>= fun xs => (some (.ok (itemHtml type (join b!"\n" (x :: xs)))) : ExpM _) : ExpM _))
      fun _ => (does_subLists h subLists).bind fun _ => .pure _
theorem does_subLists {all : Bool} {e : WebEnv} {f : Str → Model.Run Str} {g : FS → Str → ExpM Str} (h : ∀ s, RunDoes all e (f s) fun fs => g fs s) :
    (l : List ListTok) → RunDoes all e (expandSubListsRun f l) fun fs => expandSubLists (g fs) l
  | [] => by simp only [expandSubListsRun, expandSubLists]; exact .pure _
  | l :: rest => by
    simp only [expandSubListsRun, expandSubLists]
    exact (does_list h l).bind (g := fun fs x => (expandSubLists (g fs) rest >>= fun xs => (some (.ok (x :: xs)) : ExpM _) : ExpM _))
      fun _ => (does_subLists h rest).bind fun _ => .pure _
end

theorem does_token {all : Bool} {e : WebEnv} (c : WikiConf) (decode : Str → Option SvgAttributes) (dir : Str) (html : FS → HtmlEnv)
    (hc : ∀ fs, (html fs).conf = c)
    (hm : ∀ formula, RunDoes all e (Run.call (mathPicture decode c dir formula)) fun fs => some ((html fs).math formula))
    {f : Str → Model.Run Str} {g : FS → Str → ExpM Str} (h : ∀ s, RunDoes all e (f s) fun fs => g fs s) (token : Token) :
    RunDoes all e (expandTokenRun decode c dir f token) fun fs => expandToken (html fs) (g fs) token := by
  have hi : ∀ fs filename, imageSource (html fs) filename = escapePathComponents (filenameToImagePath c filename) := fun fs filename => by
    unfold imageSource; rw [hc]
  cases token with
  | heading content depth => exact (h _).bind fun _ => .pure _
  | inlineImage filename x y => simp only [expandToken, hi]; exact .pure _
  | image filename caption x y => simp only [expandToken, hi]; exact (h _).bind fun _ => .pure _
  | externalLink url text => exact (h _).bind fun _ => .pure _
  | internalLink article text => exact h _
  | list l => exact does_list h l
  | table rows caption => exact does_table h rows caption
  | math content =>
    have h2 : ∀ r : Str × Str × Str × Str, RunDoes all e (Pure.pure (mathTag r)) fun _ => some (.ok (mathTag r)) := fun r => .pure _
    have := (hm content).bind (f := fun r => Pure.pure (mathTag r)) (g := fun _ r => (some (.ok (mathTag r)) : ExpM Str)) h2
    refine RunDoes.same (m := expandTokenRun decode c dir f (.math content)) this fun fs => ?_
    rw [expandToken]
    rcases (html fs).math content with r | _ | _ | _ <;> rfl
  | refDefinition index content => exact (h _).bind fun _ => .pure _
  | refUsage index => exact .pure _
  | nowiki content => exact .pure _
  | string content => exact .pure _

theorem does_expand {e : WebEnv} (hu : FirstRun e) (c : WikiConf) (hs : SumsUsable c) (hconv : c.mathConverter ≠ .template)
    (decode : Str → Option SvgAttributes) (tokens : List (Str × Token)) (fuel : Nat) (content : Str) :
    RunDoes true e (expandStringRun decode c e.cache.cacheDir tokens fuel content)
      fun fs => expandString (cachedMath decode c e.cache.cacheDir fs) tokens fuel content := by
  have hm : ∀ formula, RunDoes true e (Run.call (mathPicture decode c e.cache.cacheDir formula))
      fun fs => some ((cachedMath decode c e.cache.cacheDir fs).math formula) := fun formula =>
    .call (does_picture hu c hs hconv decode formula) fun fs fs' a hk h => pictureFrom_math (pictureFrom_lasts hs hk h)
  induction fuel generalizing content with
  | zero => exact .result _
  | succ fuel ih =>
    simp only [expandStringRun, expandString]
    split
    · refine does_loop (fun key => ?_) _ _ _ _ _ _
      unfold expandKeyRun expandKey
      rcases lookupToken tokens (b!"$$" ++ key ++ b!"$$") with _ | token
      · exact .result _
      · exact does_token c decode _ (fun fs => cachedMath decode c e.cache.cacheDir fs) (fun _ => rfl) hm ih _
    · exact .pure _

theorem does_templateStep {all : Bool} {e : WebEnv} (c : WikiConf) (t : FS → TemplateEnv)
    (ht : ∀ text, RunDoes all e (Run.call (evaluateTemplate c text (c.sha1hex text))) fun fs => some ((t fs).evaluate text (c.sha1hex text))) {α : Type}
    {m : Model.Run (Str × TemplateState)} {r : FS → Option (Res (Str × TemplateState))} (hm : RunDoes all e m r)
    (f : Str × TemplateState → Str → Model.Run α) (g : FS → Str × TemplateState → Str → Option (Res α))
    (hf : ∀ p a, RunDoes all e (f p a) fun fs => g fs p a) :
    RunDoes all e (m >>= fun p => Run.call (evaluateTemplate c (b!"{{" ++ p.1) (c.sha1hex (b!"{{" ++ p.1))) >>= fun a => f p a)
      fun fs => (match (generalizing := false) r fs with
        | none => none
        | some (.ok (inner, st)) =>
          match (t fs).evaluate (b!"{{" ++ inner) (c.sha1hex (b!"{{" ++ inner)) with
          | .ok a => g fs (inner, st) a
          | .err => some .err
          | .panic => some .panic
          | .fatal => some .fatal
        | some .err => some .err
        | some .panic => some .panic
        | some .fatal => some .fatal) := by
  have h2 := fun p : Str × TemplateState => (ht (b!"{{" ++ p.1)).bind (f := f p) (g := fun fs a => (g fs p a : ExpM α)) fun a => hf p a
  have := hm.bind (g := fun fs p => ((some ((t fs).evaluate (b!"{{" ++ p.1) (c.sha1hex (b!"{{" ++ p.1))) : ExpM Str) >>= fun a => (g fs p a : ExpM α) : ExpM α)) h2
  refine this.same fun fs => ?_
  rcases r fs with _ | ⟨inner, st⟩ | _ | _ | _
  · rfl
  · show ((some ((t fs).evaluate (b!"{{" ++ inner) (c.sha1hex (b!"{{" ++ inner))) : ExpM Str) >>= fun a => (g fs (inner, st) a : ExpM α) : ExpM α) = _
    simp only
    rcases (t fs).evaluate (b!"{{" ++ inner) (c.sha1hex (b!"{{" ++ inner)) with a | _ | _ | _ <;> rfl
  · rfl
  · rfl
  · rfl

theorem does_placeholders {all : Bool} {e : WebEnv} (c : WikiConf) (t : FS → TemplateEnv) (hh : ∀ fs, (t fs).hash = c.sha1hex)
    (ht : ∀ text, RunDoes all e (Run.call (evaluateTemplate c text (c.sha1hex text))) fun fs => some ((t fs).evaluate text (c.sha1hex text)))
    (fuel : Nat) (content : Str) (i : Nat) (st : TemplateState) :
    RunDoes all e (placeholderRun c fuel content i st) fun fs => placeholderLoop (t fs) fuel content i st := by
  induction fuel generalizing content i st with
  | zero => exact .result _
  | succ fuel ih =>
    simp only [placeholderRun, placeholderLoop]
    split
    · split
      · rcases findClose content (i + 2) b!"{{" b!"}}" with _ | endIndex
        · exact .result _
        · simp only [hh]
          by_cases hb : contains (((content.take (endIndex + 2)).drop i).drop 2) b!"{{" = true
          · have := does_templateStep c t ht (ih (((content.take (endIndex + 2)).drop i).drop 2) 0 st)
              (fun p a => placeholderRun c fuel (replaceFirst ((content.take (endIndex + 2)).drop i)
                (templatePlaceholder (c.sha1hex (b!"{{" ++ p.1))) content) (i + 1)
                ⟨p.2.calls ++ [(b!"{{" ++ p.1, c.sha1hex (b!"{{" ++ p.1))], setResult p.2.results (c.sha1hex (b!"{{" ++ p.1)) a⟩)
              (fun fs p a => placeholderLoop (t fs) fuel (replaceFirst ((content.take (endIndex + 2)).drop i)
                (templatePlaceholder (c.sha1hex (b!"{{" ++ p.1))) content) (i + 1)
                ⟨p.2.calls ++ [(b!"{{" ++ p.1, c.sha1hex (b!"{{" ++ p.1))], setResult p.2.results (c.sha1hex (b!"{{" ++ p.1)) a⟩)
              fun p a => ih _ _ _
            simp only [if_pos hb]
            exact this
          · have := does_templateStep c t ht (RunDoes.pure (((content.take (endIndex + 2)).drop i).drop 2, st))
              (fun p a => placeholderRun c fuel (replaceFirst ((content.take (endIndex + 2)).drop i)
                (templatePlaceholder (c.sha1hex (b!"{{" ++ p.1))) content) (i + 1)
                ⟨p.2.calls ++ [(b!"{{" ++ p.1, c.sha1hex (b!"{{" ++ p.1))], setResult p.2.results (c.sha1hex (b!"{{" ++ p.1)) a⟩)
              (fun fs p a => placeholderLoop (t fs) fuel (replaceFirst ((content.take (endIndex + 2)).drop i)
                (templatePlaceholder (c.sha1hex (b!"{{" ++ p.1))) content) (i + 1)
                ⟨p.2.calls ++ [(b!"{{" ++ p.1, c.sha1hex (b!"{{" ++ p.1))], setResult p.2.results (c.sha1hex (b!"{{" ++ p.1)) a⟩)
              fun p a => ih _ _ _
            simp only [if_neg hb]
            exact this
      · exact ih _ _ _
    · exact .pure _

theorem does_tokenize {all : Bool} {e : WebEnv} (hu : FirstRun e) (env : ParserEnv) (c : WikiConf) (hs : SumsUsable c)
    (iterate : Nat → List (Str × Str) → List (Str × Str)) (fuel : Nat) (content : Str) :
    RunDoes all e (tokenizeRun env c iterate fuel content)
      fun fs => tokenizeArticle env (cachedTemplates c e.cache.cacheDir fs) iterate fuel content := by
  have ht : ∀ text, RunDoes all e (Run.call (evaluateTemplate c text (c.sha1hex text)))
      fun fs => some ((cachedTemplates c e.cache.cacheDir fs).evaluate text (c.sha1hex text)) := fun text =>
    .call (does_template hu c hs text) fun fs fs' a hk h => by
      obtain ⟨bytes, h1, h2⟩ := h
      have h1 := hk.texts templateFolder (by simp) _ (hs.sha1 _) _ h1
      unfold cachedTemplates
      simp only [show cachedBytes e.cache.cacheDir fs' b!"templates" (c.sha1hex text) = some bytes from h1, Option.bind_some, h2]
  have hp := fun content => does_placeholders (all := all) (e := e) c (cachedTemplates c e.cache.cacheDir) (fun _ => rfl) ht fuel content 0 ⟨[], []⟩
  have hev : ∀ content, RunDoes all e (evaluateTemplatesRun c iterate fuel content) fun fs =>
      (placeholderLoop (cachedTemplates c e.cache.cacheDir fs) fuel content 0 ⟨[], []⟩ >>= fun p =>
        (resolvePlaceholders iterate p.2.results fuel 0 p.1).map .ok : ExpM Str) := fun content => (hp content).bind fun _ => .result _
  have hlast : ∀ content, RunDoes all e (Run.pureResult (cleanText env fuel content) >>= fun content =>
      Run.pureResult (tokenizeContent env fuel content TokState.initial)) fun _ =>
      ((cleanText env fuel content : ExpM Str) >>= fun content => tokenizeContent env fuel content TokState.initial : ExpM _) :=
    fun content => (RunDoes.result _).bind fun _ => .result _
  have := (RunDoes.result (all := all) (e := e) (cleanText env fuel content)).bind
    (g := fun fs content => ((placeholderLoop (cachedTemplates c e.cache.cacheDir fs) fuel content 0 ⟨[], []⟩ >>= fun p =>
        (resolvePlaceholders iterate p.2.results fuel 0 p.1).map .ok : ExpM Str) >>= fun content => (cleanText env fuel content : ExpM Str) >>= fun content =>
      tokenizeContent env fuel content TokState.initial : ExpM _))
    fun content => (hev content).bind hlast
  refine RunDoes.same (m := tokenizeRun env c iterate fuel content) this fun fs => ?_
  unfold tokenizeArticle evaluateTemplates
  rcases cleanText env fuel content with _ | content | _ | _ | _
  · rfl
  · simp only
    show ((placeholderLoop (cachedTemplates c e.cache.cacheDir fs) fuel content 0 ⟨[], []⟩ >>= fun p =>
        (resolvePlaceholders iterate p.2.results fuel 0 p.1).map .ok : ExpM Str) >>= fun content => (cleanText env fuel content : ExpM Str) >>= fun content =>
      tokenizeContent env fuel content TokState.initial : ExpM _) = _
    rcases placeholderLoop (cachedTemplates c e.cache.cacheDir fs) fuel content 0 ⟨[], []⟩ with _ | ⟨content, st⟩ | _ | _ | _
    · rfl
    · simp only
      show (((resolvePlaceholders iterate st.results fuel 0 content).map .ok : ExpM Str) >>= fun content => (cleanText env fuel content : ExpM Str) >>= fun content =>
        tokenizeContent env fuel content TokState.initial : ExpM _) = _
      rcases resolvePlaceholders iterate st.results fuel 0 content with _ | content
      · rfl
      · simp only [Option.map_some]
        show ((cleanText env fuel content : ExpM Str) >>= fun content => tokenizeContent env fuel content TokState.initial : ExpM _) = _
        rcases cleanText env fuel content with _ | content | _ | _ | _ <;> rfl
    · rfl
    · rfl
    · rfl
  · rfl
  · rfl
  · rfl

theorem run_bind_ok {α β : Type} {m : Model.Run α} {f : α → Model.Run β} {e : WebEnv} {w w1 : World} {a : α}
    (h : m e w = some (.ok a, w1)) : (m >>= f) e w = f a e w1 := by
  have hrun : (m >>= f) e w = (match m e w with
      | none => none
      | some (.ok a, w') => f a e w'
      | some (.err, w') => some (.err, w')
      | some (.panic, w') => some (.panic, w')
      | some (.fatal, w') => some (.fatal, w')
      | some (.waiting, w') => some (.waiting, w')) := rfl
  rw [hrun, h]

theorem run_bind_inv {α β : Type} {m : Model.Run α} {f : α → Model.Run β} {e : WebEnv} {w w' : World} {b : β}
    (h : (m >>= f) e w = some (.ok b, w')) : ∃ a w1, m e w = some (.ok a, w1) ∧ f a e w1 = some (.ok b, w') := by
  have hrun : (m >>= f) e w = (match m e w with
      | none => none
      | some (.ok a, w') => f a e w'
      | some (.err, w') => some (.err, w')
      | some (.panic, w') => some (.panic, w')
      | some (.fatal, w') => some (.fatal, w')
      | some (.waiting, w') => some (.waiting, w')) := rfl
  rw [hrun] at h
  generalize hm : m e w = r at h
  rcases r with _ | ⟨_ | _ | _ | _ | _, w1⟩
  · cases h
  · exact ⟨_, w1, rfl, h⟩
  all_goals cases h

/-- The text of an article after its templates have been evaluated, and its tokens: the part of `articleRun` before the images. -/
def parseRun (env : ParserEnv) (c : WikiConf) (iterate : Nat → List (Str × Str) → List (Str × Str)) (fuel : Nat) (article : Str) :
    Model.Run (Str × TokState) := do
  let dto ← Run.call (downloadArticle c (c.wikiInstance ++ b!"." ++ c.host) article)
  tokenizeRun env c iterate fuel dto.content

/-- What a run that has made a page leaves in the cache, with the article that it has worked with. -/
theorem run_leaves (env : ParserEnv) (c : WikiConf) (hs : SumsUsable c) (hconv : c.mathConverter ≠ .template)
    (hh : c.imageArticleHosts ≠ []) (decode : Str → Option SvgAttributes) (iterate : Nat → List (Str × Str) → List (Str × Str)) (fuel : Nat)
    (style article : Str) (e : WebEnv) (hu : FirstRun e) (w w' : World) (hwf : w.fs.WF) (hage : NothingOutdated e w.fs)
    (hnames : ∀ text s w1, parseRun env c iterate fuel article e w = some (.ok (text, s), w1) →
      ∀ image ∈ s.images, ∃ name, NamedBy image name ∧ name ∉ [b!"", b!".", b!".."])
    (page : Str) (hrun : articleRun env c decode e.cache.cacheDir iterate fuel style article e w = some (.ok page, w')) :
    ∃ dto w1 bytes, downloadArticle c (c.wikiInstance ++ b!"." ++ c.host) article e w = (.ok dto, w1) ∧ cachedBytes e.cache.cacheDir w'.fs b!"articles" (underscores article ++ b!".json") = some bytes ∧
      c.decodeArticle bytes = some (dto.title, dto.content) ∧
      (∀ content s, tokenizeArticle env (cachedTemplates c e.cache.cacheDir w'.fs) iterate fuel dto.content = some (.ok (content, s)) →
        ∀ image ∈ s.images, ImageCached c e.cache.cacheDir w'.fs image) ∧
      articleHtml env (cachedTemplates c e.cache.cacheDir w'.fs) iterate (cachedMath decode c e.cache.cacheDir w'.fs) fuel style article dto.content =
        some (.ok page) := by
  have hfine : Fine e w.fs := ⟨hwf, fun folder _ name _ f hg k => hage.1 _ f hg k⟩
  obtain ⟨dto, w1, g1, hrun⟩ := run_bind_inv hrun
  obtain ⟨⟨text, s⟩, w2, g2, hrun⟩ := run_bind_inv hrun
  obtain ⟨u, w3, g3, hrun⟩ := run_bind_inv hrun
  obtain ⟨body, w4, g4, hrun⟩ := run_bind_inv hrun
  cases hrun
  have hparse : parseRun env c iterate fuel article e w = some (.ok (text, s), w2) := by
    rw [parseRun, run_bind_ok g1]
    exact g2
  have g1' : downloadArticle c (c.wikiInstance ++ b!"." ++ c.host) article e w = (.ok dto, w1) := Option.some.inj g1
  have g3' : downloadImages c e.cache.cacheDir s.images e w2 = (.ok u, w3) := Option.some.inj g3
  obtain ⟨a1, a2, a3⟩ := does_article (all := false) hu c (c.wikiInstance ++ b!"." ++ c.host) article w hfine trivial
  rw [g1'] at a1 a2 a3
  obtain ⟨ht, bytes, hb, hd⟩ := a3 dto rfl
  obtain ⟨b1, b2, b3⟩ := does_tokenize (all := false) hu env c hs iterate fuel dto.content w1 _ w2 a1 g2
  obtain ⟨c1, c2, c3⟩ := does_images hu c hh s.images (hnames text s w2 hparse) w2 b1 trivial
  rw [g3'] at c1 c2 c3
  obtain ⟨d1, d2, d3⟩ := does_expand hu c hs hconv decode s.tokenMap fuel text w3 _ w' c1 g4
  have htok : tokenizeArticle env (cachedTemplates c e.cache.cacheDir w'.fs) iterate fuel dto.content = some (.ok (text, s)) :=
    b3 _ rfl w'.fs (c2.trans d2.weaken)
  refine ⟨dto, w1, bytes, g1', ((b2.trans c2).trans d2.weaken).texts articleFolder (by simp) _ (article_name_ok _) _ hb, hd, ?_, ?_⟩
  · intro content' s' h' image hi
    rw [htok] at h'
    cases h'
    exact imageCached_lasts _ _ (all := false) d2.weaken (c3 u rfl image hi)
  · unfold articleHtml
    rw [htok]
    show (expandString (cachedMath decode c e.cache.cacheDir w'.fs) s.tokenMap fuel text >>= fun body =>
      (some (.ok (htmlHeader style ++ b!"\n<h1>" ++ article ++ b!"</h1>\n" ++ body ++ htmlFooter)) : ExpM Str) : ExpM Str) = _
    rw [show expandString (cachedMath decode c e.cache.cacheDir w'.fs) s.tokenMap fuel text = (some (.ok body) : ExpM Str) from
      d3 body rfl w'.fs .refl, ← ht]
    rfl

/-- A run that has made a page leaves everything in the cache that is needed to make this page. -/
theorem C77_everything_is_left_in_the_cache (env : ParserEnv) (c : WikiConf) (hs : SumsUsable c) (hconv : c.mathConverter ≠ .template)
    (hh : c.imageArticleHosts ≠ []) (decode : Str → Option SvgAttributes) (iterate : Nat → List (Str × Str) → List (Str × Str)) (fuel : Nat)
    (style article : Str) (e : WebEnv) (hu : FirstRun e) (w w' : World) (hwf : w.fs.WF) (hage : NothingOutdated e w.fs)
    (hnames : ∀ text s w1, parseRun env c iterate fuel article e w = some (.ok (text, s), w1) →
      ∀ image ∈ s.images, ∃ name, NamedBy image name ∧ name ∉ [b!"", b!".", b!".."])
    (page : Str) (hrun : articleRun env c decode e.cache.cacheDir iterate fuel style article e w = some (.ok page, w')) :
    ∃ bytes title text, cachedBytes e.cache.cacheDir w'.fs b!"articles" (underscores article ++ b!".json") = some bytes ∧
      c.decodeArticle bytes = some (title, text) ∧
      (∀ content s, tokenizeArticle env (cachedTemplates c e.cache.cacheDir w'.fs) iterate fuel text = some (.ok (content, s)) →
        ∀ image ∈ s.images, ImageCached c e.cache.cacheDir w'.fs image) ∧
      articleHtml env (cachedTemplates c e.cache.cacheDir w'.fs) iterate (cachedMath decode c e.cache.cacheDir w'.fs) fuel style article text =
        some (.ok page) := by
  obtain ⟨dto, w1, bytes, -, h1, h2, h3, h4⟩ := run_leaves env c hs hconv hh decode iterate fuel style article e hu w w' hwf hage hnames page hrun
  exact ⟨bytes, dto.title, dto.content, h1, h2, h3, h4⟩

/-- An article that has been processed once can be processed again without network: while nothing in the cache is outdated, the
second run makes the same page without any request (and without any command), whatever the servers would answer. -/
theorem C77_second_run_without_requests (env : ParserEnv) (c : WikiConf) (hs : SumsUsable c) (hconv : c.mathConverter ≠ .template)
    (hh : c.imageArticleHosts ≠ []) (decode : Str → Option SvgAttributes) (iterate : Nat → List (Str × Str) → List (Str × Str)) (fuel : Nat)
    (style article : Str) (e : WebEnv) (hu : FirstRun e) (w w1 : World) (hwf : w.fs.WF) (hage : NothingOutdated e w.fs)
    (hnames : ∀ text s w1, parseRun env c iterate fuel article e w = some (.ok (text, s), w1) →
      ∀ image ∈ s.images, ∃ name, NamedBy image name ∧ name ∉ [b!"", b!".", b!".."])
    (page : Str) (hrun : articleRun env c decode e.cache.cacheDir iterate fuel style article e w = some (.ok page, w1))
    (e2 : WebEnv) (w2 : World) (hcache : e2.cache.cacheDir = e.cache.cacheDir) (hfs : w2.fs = w1.fs) (hff : e2.faults = noFaults)
    (hmax : 0 ≤ e2.cache.maxAge) (hage2 : NothingOutdated e2 w2.fs) :
    ∃ w3, articleRun env c decode e2.cache.cacheDir iterate fuel style article e2 w2 = some (.ok page, w3) ∧ w3.events = w2.events ∧
      ∀ path, (w3.fs.get path).map File.content = (w2.fs.get path).map File.content := by
  obtain ⟨bytes, title, text, h1, h2, h3, h4⟩ := C77_everything_is_left_in_the_cache env c hs hconv hh decode iterate fuel style article e hu w w1
    hwf hage hnames page hrun
  rw [← hfs, ← hcache] at h1 h3 h4
  obtain ⟨host, hosts, hhost⟩ := List.exists_cons_of_ne_nil hh
  exact C77_page_from_the_cache env c hs decode iterate fuel style article e2 w2 hff hmax (by rw [hcache]; exact hu.dir) hage2 host hosts hhost bytes
    title text page h1 h2 h3 h4

/-! A run with an empty cache: an article with a template, an image and a formula needs six requests. -/

/-- A wiki with Commons as source of images. -/
def repeatConf : WikiConf := demoConf [b!"commons"]

/-- A machine whose cache has no eviction strategy. -/
def repeatEnv : WebEnv := { demoWebBig ⟨true, some b!"made"⟩ with cache := ⟨b!"/c", 100000, 60, .none, id⟩ }

/-- The answers to the requests for the article, the template, the page about the image, the image, the formula and its picture. -/
def repeatWorld : World := ⟨[], 0, [],
  [answer 200 [] [] b!"A|A {{n}} km walk.\n[[File:a.jpg|thumb|Way]]\n\nIt is <math>x</math>.", answer 200 [] [] b!"3",
    answer 200 [] [] b!"File:a.jpg|", answer 200 [] [] b!"picture", idAnswer, svgAnswer]⟩

/-- The page. -/
def repeatPage : Str := htmlHeader b!"s.css" ++ b!"\n<h1>A</h1>\nA 3 km walk.\n<div class=\"figure\">\n<img alt=\"image\" src=\"./images/a.jpg\" >\n\
<div class=\"caption\">\nWay\n</div>\n</div>\nIt is <img alt=\"image\" src=\"./images/17ab.svg\" style=\"width: 2ex; height: 3ex; vertical-align: -1ex\">." ++
  htmlFooter

/-- The run on the empty cache. -/
def repeatRun (e : WebEnv) (w : World) : Option (Outcome Str × World) :=
  articleRun exampleEnv repeatConf demoDecode b!"/c" (fun _ l => l) 300 b!"s.css" b!"A" e w

/-- What is left after the run on the empty cache. -/
def repeatAfter : World := ((repeatRun repeatEnv repeatWorld).map Prod.snd).getD repeatWorld

theorem repeatRun_result : (repeatRun repeatEnv repeatWorld).map (fun r => (r.1, r.2.events.length)) = some (.ok repeatPage, 6) := by
  decide +kernel

theorem repeatRun_ok : repeatRun repeatEnv repeatWorld = some (.ok repeatPage, repeatAfter) := by
  have h := repeatRun_result
  unfold repeatAfter
  generalize repeatRun repeatEnv repeatWorld = r at h
  match r, h with
  | some (o, w), h =>
    simp only [Option.map_some, Option.some.injEq, Prod.mk.injEq] at h
    rw [h.1]
    rfl

theorem repeatAfter_young : ∀ p ∈ repeatAfter.fs, (100 : Int) - p.2.mtime < 61 * 60000000000 := by decide +kernel

theorem repeat_images : (parseRun exampleEnv repeatConf (fun _ l => l) 300 b!"A" repeatEnv repeatWorld).map
    (fun r => match r.1 with | .ok p => p.2.images | _ => []) = some [b!"File:a.jpg"] := by decide +kernel

theorem repeatConf_sums : SumsUsable repeatConf := ⟨fun _ => show b!"cd" ∉ _ by decide, fun _ => show 2 ≤ b!"ab".length by decide⟩

theorem repeatEnv_usable : FirstRun repeatEnv where
  faults := rfl
  age := by decide
  dir := by decide
  clock _ _ := show (100 : Int) - 100 < (60 + 1) * 60000000000 by decide
  strategy := rfl
  walk := fun _ => List.Perm.refl _
  digits _ := ⟨show b!"123" ≠ [] by decide, show ∀ c ∈ b!"123", 48 ≤ c ∧ c ≤ 57 by decide⟩
  command _ _ _ := rfl

theorem repeat_names (text : Str) (s : TokState) (w1 : World)
    (h : parseRun exampleEnv repeatConf (fun _ l => l) 300 b!"A" repeatEnv repeatWorld = some (.ok (text, s), w1)) :
    ∀ image ∈ s.images, ∃ name, NamedBy image name ∧ name ∉ [b!"", b!".", b!".."] := by
  have hi := repeat_images
  rw [h] at hi
  simp only [Option.map_some, Option.some.injEq] at hi
  rw [hi]
  intro image hm
  rw [List.mem_singleton] at hm
  subst hm
  exact ⟨b!"a.jpg", ⟨by decide, b!"File", by decide, Or.inl rfl⟩, by decide⟩

attribute [local irreducible] repeatAfter in
/-- All hypotheses are met: the first run sends six requests, the second one, whose server answers nothing, gives the same page without a
request. -/
example : ∃ w3, repeatRun repeatEnv { repeatAfter with events := [], script := [] } = some (.ok repeatPage, w3) ∧ w3.events = [] := by
  have hage : NothingOutdated repeatEnv repeatAfter.fs :=
    ⟨fun p f hf k => repeatAfter_young _ (mem_of_get hf), fun k l => show (100 : Int) - 100 < (60 + 1) * 60000000000 by decide⟩
  obtain ⟨w3, h1, h2, -⟩ := C77_second_run_without_requests exampleEnv repeatConf repeatConf_sums (by decide) (by decide) demoDecode (fun _ l => l) 300
    b!"s.css" b!"A" repeatEnv repeatEnv_usable repeatWorld repeatAfter (by simp [FS.WF, repeatWorld])
    ⟨fun p f hf => absurd hf (by simp [repeatWorld, FS.get]), hage.2⟩ repeat_names repeatPage repeatRun_ok repeatEnv
    { repeatAfter with events := [], script := [] } rfl rfl rfl (by decide) hage
  exact ⟨w3, h1, h2⟩

end Verif.Props
