import Verif.Model.ImagePath
import Verif.Lemmas.Web
import Verif.Props.Http

/-! Lemmas about downloads of articles and images. -/

namespace Verif.Lemmas

open Verif.Go Verif.Model Verif.Spec

/-! ### Which actions a function can perform -/

/-- All actions of `m` satisfy `P`. -/
def Emits (P : Event → Prop) (m : Web α) : Prop :=
  ∀ e w, ∃ new, (m e w).2.events = w.events ++ new ∧ ∀ x ∈ new, P x

namespace Emits

variable {P : Event → Prop} {α β : Type}

theorem of_same {m : Web α} (h : ∀ e w, (m e w).2.events = w.events) : Emits P m :=
  fun e w => ⟨[], by rw [h, List.append_nil], by simp⟩

theorem pure (a : α) : Emits P (Pure.pure a : Web α) := of_same fun _ _ => rfl

theorem bind {m : Web α} {f : α → Web β} (hm : Emits P m) (hf : ∀ a, Emits P (f a)) : Emits P (m >>= f) := by
  intro e w
  obtain ⟨n1, h1, p1⟩ := hm e w
  rcases hr : m e w with ⟨o, w'⟩
  rw [hr] at h1
  cases o with
  | ok a =>
    obtain ⟨n2, h2, p2⟩ := hf a e w'
    refine ⟨n1 ++ n2, by rw [web_bind_ok hr, h2, h1, List.append_assoc], ?_⟩
    intro x hx
    rcases List.mem_append.mp hx with h | h
    · exact p1 x h
    · exact p2 x h
  | err => exact ⟨n1, by rw [web_bind_err hr]; exact h1, p1⟩
  | panic => exact ⟨n1, by rw [web_bind_panic hr]; exact h1, p1⟩
  | fatal => exact ⟨n1, by rw [web_bind_fatal hr]; exact h1, p1⟩
  | waiting => exact ⟨n1, by rw [web_bind_waiting hr]; exact h1, p1⟩

theorem attempt {m : Web α} (hm : Emits P m) : Emits P (Web.attempt m) := by
  intro e w
  obtain ⟨n1, h1, p1⟩ := hm e w
  refine ⟨n1, ?_, p1⟩
  rw [← h1]
  unfold Web.attempt
  rcases m e w with ⟨o, w'⟩
  cases o <;> rfl

theorem mono {Q : Event → Prop} {m : Web α} (h : Emits P m) (hpq : ∀ x, P x → Q x) : Emits Q m := by
  intro e w
  obtain ⟨n, h1, h2⟩ := h e w
  exact ⟨n, h1, fun x hx => hpq x (h2 x hx)⟩

theorem files (m : CacheEnv → Int → Str → FsM α) : Emits P (Web.files m) := of_same fun _ _ => rfl
theorem lift (r : Res α) : Emits P (Web.lift r) := of_same fun _ _ => rfl
theorem bind_lift {r : Res α} {f : α → Web β} (h : ∀ a, r = .ok a → Emits P (f a)) :
    Emits P (Web.lift r >>= f) := by
  cases r with
  | ok a =>
    have : (Web.lift (.ok a) >>= f) = f a := by funext e w; exact web_bind_ok rfl
    rw [this]; exact h a rfl
  | err => exact of_same fun e w => by rw [web_bind_err (m := Web.lift .err) rfl]
  | panic => exact of_same fun e w => by rw [web_bind_panic (m := Web.lift .panic) rfl]
  | fatal => exact of_same fun e w => by rw [web_bind_fatal (m := Web.lift .fatal) rfl]

theorem throwErr : Emits P (Web.throwErr : Web α) := of_same fun _ _ => rfl
theorem orErr (o : Option α) : Emits P (Model.orErr o) := by cases o; exact throwErr; exact pure _

theorem whenW {m : Web Unit} (b : Bool) (h : Emits P m) : Emits P (Model.whenW b m) := by
  unfold Model.whenW; cases b
  · exact pure _
  · exact h

theorem doGet (url : Str) (h1 : P (.request b!"GET" url [])) (h2 : ∀ s, P (.sleep s)) :
    Emits P (doRequest b!"GET" url []) := by
  intro e w
  obtain ⟨new, h, h'⟩ := Props.C15_get_repetitions_identical_partial b!"GET" url e w
  refine ⟨new, h, ?_⟩
  intro x hx
  rcases h' x hx with rfl | ⟨s, rfl⟩
  · exact h1
  · exact h2 s

theorem downloadAndCache (url folder name : Str) (h1 : P (.request b!"GET" url [])) (h2 : ∀ s, P (.sleep s)) :
    Emits P (Model.downloadAndCache url folder name) := by
  unfold Model.downloadAndCache
  refine bind (files _) ?_
  rintro ⟨path, cached⟩
  cases cached with
  | true => exact pure _
  | false =>
    show Emits P (downloadMissing url folder name)
    unfold downloadMissing Model.download
    exact bind (bind (doGet url h1 h2) fun r => pure _) fun r => bind (files _) fun p => pure _

theorem svgToViewbox (c : WikiConf) (path : Str) : Emits P (Model.svgToViewbox c path) := by
  refine of_same fun e w => ?_
  unfold Model.svgToViewbox
  split
  · split
    · split <;> rfl
    · rfl
  · rfl

end Emits

/-! ### A download that reports success has its file -/

/-- A successful download: the path is the path of the entry, and the file exists. -/
theorem downloadAndCache_exists {env : WebEnv} {url folder name : Str} {w w' : World} {p : Str} {fresh : Bool}
    (hv : ValidKey env.cache folder name) (hw : WalkOk env.cache) (hr : ∀ k, Digits (env.rnd k)) (hwf : w.fs.WF)
    (h : downloadAndCache url folder name env w = (.ok (p, fresh), w')) :
    p = getFilePathInCache env.cache.cacheDir folder name ∧ (w'.fs.get p).isSome = true ∧ w'.fs.WF := by
  obtain ⟨⟨q, c⟩, w1, h1, h2⟩ := web_bind_inv h
  have hf : Web.files (fun env now _ => getFile env folder name now) env w =
      (Web.ofRes (getFile env.cache folder name (env.clock w.ops) env.faults w.ops w.fs).res, { w with
        fs := (getFile env.cache folder name (env.clock w.ops) env.faults w.ops w.fs).fs,
        ops := (getFile env.cache folder name (env.clock w.ops) env.faults w.ops w.fs).step }) := rfl
  rw [hf] at h1
  have hwf1 : (getFile env.cache folder name (env.clock w.ops) env.faults w.ops w.fs).fs.WF :=
    (lookup_facts hv hwf (lookup_state (ff := env.faults) (now := env.clock w.ops) hv w.ops)).1
  have hres : (getFile env.cache folder name (env.clock w.ops) env.faults w.ops w.fs).res = .ok (q, c) := by
    cases hg : (getFile env.cache folder name (env.clock w.ops) env.faults w.ops w.fs).res with
    | ok x => rw [hg] at h1; cases h1; rfl
    | err => rw [hg] at h1; cases h1
    | panic => rw [hg] at h1; cases h1
    | fatal => rw [hg] at h1; cases h1
  have hw1 : w1.fs = (getFile env.cache folder name (env.clock w.ops) env.faults w.ops w.fs).fs := by
    exact (congrArg (fun x => x.2.fs) h1).symm
  cases c with
  | true =>
    obtain ⟨e1, f, -, -, g, e4, -⟩ := Props.C07_usable_is_fresh env.cache folder name _ _ _ _ hv q hres
    cases h2
    rw [hw1]
    exact ⟨e1, by rw [e4]; rfl, hwf1⟩
  | false =>
    obtain ⟨body, w2, h3, h4⟩ := web_bind_inv h2
    obtain ⟨resp, w3, h5, h6⟩ := web_bind_inv h3
    cases h6
    obtain ⟨path, w4, h7, h8⟩ := web_bind_inv h4
    cases h8
    have hw3 : w2.fs = w1.fs := by
      have := congrArg (fun x => x.2.fs) h5
      exact this.symm
    have hf' : Web.files (fun env now rnd => cacheToFile env folder name resp.body rnd now) env w2 =
      (Web.ofRes (cacheToFile env.cache folder name resp.body (env.rnd w2.ops) (env.clock w2.ops) env.faults w2.ops w2.fs).res,
        { w2 with
          fs := (cacheToFile env.cache folder name resp.body (env.rnd w2.ops) (env.clock w2.ops) env.faults w2.ops w2.fs).fs,
          ops := (cacheToFile env.cache folder name resp.body (env.rnd w2.ops) (env.clock w2.ops) env.faults w2.ops w2.fs).step }) := rfl
    rw [hf'] at h7
    have hwf2 : w2.fs.WF := by rw [hw3, hw1]; exact hwf1
    have hst := write_state (ff := env.faults) (reader := resp.body) (now := env.clock w2.ops) hv (hr w2.ops) hw hwf2 w2.ops
    have hwf3 : (cacheToFile env.cache folder name resp.body (env.rnd w2.ops) (env.clock w2.ops) env.faults w2.ops w2.fs).fs.WF := by
      rcases hst with h | h
      · exact (mid_facts hv (hr _) hwf2 h).1
      · exact (done_facts hv (hr _) hwf2 h).1
    generalize ho : cacheToFile env.cache folder name resp.body (env.rnd w2.ops) (env.clock w2.ops) env.faults w2.ops w2.fs = o at h7 hwf3
    cases hor : o.res with
    | ok q' =>
      rw [hor] at h7
      cases h7
      subst ho
      obtain ⟨c1, -, c3, -⟩ := Props.C01_write_success _ _ _ _ _ _ _ _ _ hw hv (hr _) hwf2 _ hor
      exact ⟨c1, by rw [c3]; rfl, hwf3⟩
    | err => rw [hor] at h7; cases h7
    | panic => rw [hor] at h7; cases h7
    | fatal => rw [hor] at h7; cases h7

/-! ### The file system stays well formed -/

/-- `m` keeps the file system well formed in environment `e`. -/
def KeepsWF (e : WebEnv) (m : Web α) : Prop := ∀ w, w.fs.WF → (m e w).2.fs.WF

namespace KeepsWF

variable {α β : Type} {e : WebEnv}

theorem pure (a : α) : KeepsWF e (Pure.pure a : Web α) := fun _ h => h
theorem throwErr : KeepsWF e (Web.throwErr : Web α) := fun _ h => h
theorem lift (r : Res α) : KeepsWF e (Web.lift r) := fun _ h => h
theorem orErr (o : Option α) : KeepsWF e (Model.orErr o) := by cases o; exact throwErr; exact pure _

theorem bind {m : Web α} {f : α → Web β} (hm : KeepsWF e m) (hf : ∀ a, KeepsWF e (f a)) :
    KeepsWF e (m >>= f) := by
  intro w hw
  have h1 := hm w hw
  rcases hr : m e w with ⟨o, w'⟩
  rw [hr] at h1
  cases o with
  | ok a => rw [web_bind_ok hr]; exact hf a w' h1
  | err => rw [web_bind_err hr]; exact h1
  | panic => rw [web_bind_panic hr]; exact h1
  | fatal => rw [web_bind_fatal hr]; exact h1
  | waiting => rw [web_bind_waiting hr]; exact h1

theorem bind_lift {r : Res α} {f : α → Web β} (h : ∀ a, r = .ok a → KeepsWF e (f a)) :
    KeepsWF e (Web.lift r >>= f) := by
  cases r with
  | ok a =>
    have : (Web.lift (.ok a) >>= f) = f a := by funext e w; exact web_bind_ok rfl
    rw [this]; exact h a rfl
  | err => intro w hw; rw [web_bind_err (m := Web.lift .err) rfl]; exact hw
  | panic => intro w hw; rw [web_bind_panic (m := Web.lift .panic) rfl]; exact hw
  | fatal => intro w hw; rw [web_bind_fatal (m := Web.lift .fatal) rfl]; exact hw

theorem readBytes (path : Str) : KeepsWF e (Model.readBytes path) := by
  intro w hw
  show (FsM.readFile path e.faults w.ops w.fs).fs.WF
  unfold FsM.readFile FsM.prim
  split
  · exact hw
  · split
    · rename_i h
      simp only at h
      split at h <;> (cases h; exact hw)

theorem downloadAndCache {url folder name : Str} (hv : ValidKey e.cache folder name) (hw : WalkOk e.cache)
    (hr : ∀ k, Digits (e.rnd k)) : KeepsWF e (Model.downloadAndCache url folder name) := by
  refine bind ?_ ?_
  · intro w hwf
    exact (lookup_facts hv hwf (lookup_state (ff := e.faults) (now := e.clock w.ops) hv w.ops)).1
  · rintro ⟨path, cached⟩
    cases cached with
    | true => exact pure _
    | false =>
      refine bind (bind (fun w h => h) fun r => pure _) fun body => bind ?_ fun p => pure _
      intro w hwf
      rcases write_state (ff := e.faults) (reader := body) (now := e.clock w.ops) hv (hr w.ops) hw hwf w.ops with h | h
      · exact (mid_facts hv (hr _) hwf h).1
      · exact (done_facts hv (hr _) hwf h).1

theorem svgToViewbox (c : WikiConf) (path : Str) : KeepsWF e (Model.svgToViewbox c path) := by
  intro w hw
  unfold Model.svgToViewbox
  split
  · split
    · split
      · exact hw
      · exact FSl.WF_put hw _ _
    · exact hw
  · exact hw

theorem whenW {m : Web Unit} (b : Bool) (h : KeepsWF e m) : KeepsWF e (Model.whenW b m) := by
  unfold Model.whenW; cases b
  · exact pure _
  · exact h

end KeepsWF

/-! ### Names -/

theorem split_colon {a b : Str} (ha : (0x3A : Byte) ∉ a) (hb : (0x3A : Byte) ∉ b) :
    afterColon (a ++ b!":" ++ b) = .ok b := by
  unfold afterColon
  rw [List.append_assoc, List.singleton_append, split_singleton_append _ ha, split_singleton_of_not_mem hb]
  rfl

theorem underscores_map (s : Str) : underscores s = s.map fun c => if c = 0x20 then 0x5F else c := by
  unfold underscores
  rw [replaceAll_singleton, List.map_eq_flatMap]
  congr 1
  funext x
  split <;> rfl

theorem underscores_of_no_space {s : Str} (h : (0x20 : Byte) ∉ s) : underscores s = s := by
  unfold underscores
  refine replaceAll_of_not_contains ?_
  rw [Bool.eq_false_iff]
  intro hc
  rw [contains_singleton] at hc
  exact h hc

theorem sanitize_append (a b : Str) : sanitizeFilename (a ++ b) = sanitizeFilename a ++ sanitizeFilename b := by
  simp [sanitize_eq_flatMap]

theorem ext_sep (a b : Str) : ext (a ++ sepB :: b) = ext b := by
  have key : ∀ (l r acc : Str), ext.go acc (l ++ sepB :: r) = ext.go acc l := by
    intro l r
    induction l with
    | nil => intro acc; simp [ext.go]
    | cons c l ih =>
      intro acc
      rw [List.cons_append, ext.go, ext.go, ih]
  unfold ext
  rw [List.reverse_append, List.reverse_cons, List.append_assoc, List.singleton_append]
  exact key _ _ _

theorem extLower_sep (a b : Str) : extLower (a ++ b!"/" ++ b) = extLower b := by
  unfold extLower lowerAscii
  rw [List.map_append, List.map_append, List.append_assoc]
  exact ext_sep _ _

theorem png_entry {cacheDir folder name : Str} (hf : Plain folder) (hn : name ∉ [b!"", b!".", b!".."]) :
    pngPath (getFilePathInCache cacheDir folder name) = getFilePathInCache cacheDir folder (name ++ b!".png") ∧
    pngPath (getRelativeFilePathInCache folder name) = getRelativeFilePathInCache folder (name ++ b!".png") ∧
    name ++ b!".png" ∉ [b!"", b!".", b!".."] := by
  have hn' : name ++ b!".png" ∉ [b!"", b!".", b!".."] := by
    intro h
    simp only [List.mem_cons, List.not_mem_nil, or_false] at h
    rcases h with h | h | h <;> (have := congrArg List.length h; simp at this)
  have hp := Props.plain_sanitize hn
  have hp' := Props.plain_sanitize hn'
  have hs : sanitizeFilename (name ++ b!".png") = sanitizeFilename name ++ b!".png" := by
    rw [sanitize_append]; rfl
  have happ : ∀ d : Str, pathJoin [d, folder, sanitizeFilename name] ++ b!".png" =
      pathJoin [d, folder, sanitizeFilename (name ++ b!".png")] := by
    intro d
    rw [pathJoin_three hf hp, pathJoin_three hf hp']
    have h1 : ∀ x : Str, cleanElems d ++ [folder, x] = (cleanElems d ++ [folder]) ++ [x] := by simp
    rw [h1 (sanitizeFilename name), h1 (sanitizeFilename (name ++ b!".png")),
      renderPath_append (e := sanitizeFilename name) (by simp),
      renderPath_append (e := sanitizeFilename (name ++ b!".png")) (by simp), hs]
    simp
  exact ⟨happ _, happ _, hn'⟩

end Verif.Lemmas
