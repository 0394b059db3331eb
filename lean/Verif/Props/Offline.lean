import Verif.Spec.Offline
import Verif.Props.Requests
import Verif.Lemmas.ImageFiles
import Verif.Props.FailedRequests
import Verif.Lemmas.TableClosed
import Verif.Props.ImageFile

/-!
# Without network (C77)
-/

namespace Verif.Props
open Verif.Go Verif.Model Verif.Spec Verif.Lemmas FSl

/-- Nothing has happened, and all files have the same content as at the beginning. -/
structure Still (e : WebEnv) (w0 w : World) : Prop where
  events : w.events = w0.events
  script : w.script = w0.script
  same : ∀ p, (w.fs.get p).map File.content = (w0.fs.get p).map File.content
  young : ∀ p f, w.fs.get p = some f → ∀ k, e.clock k - f.mtime < (e.cache.maxAge + 1) * 60000000000

/-- The call has this result and changes nothing. -/
def Yields {α : Type} (e : WebEnv) (w0 : World) (m : Web α) (a : α) : Prop :=
  ∀ w, Still e w0 w → ∃ w', m e w = (.ok a, w') ∧ Still e w0 w'

theorem Yields.pure {α : Type} {e : WebEnv} {w0 : World} (a : α) : Yields e w0 (Pure.pure a) a := fun w h => ⟨w, rfl, h⟩

theorem Yields.bind {α β : Type} {e : WebEnv} {w0 : World} {m : Web α} {f : α → Web β} {a : α} {b : β} (hm : Yields e w0 m a)
    (hf : Yields e w0 (f a) b) : Yields e w0 (m >>= f) b := by
  intro w h
  obtain ⟨w1, e1, h1⟩ := hm w h
  obtain ⟨w2, e2, h2⟩ := hf w1 h1
  exact ⟨w2, by rw [web_bind_ok e1, e2], h2⟩

theorem Yields.lift {α : Type} {e : WebEnv} {w0 : World} {r : Res α} {a : α} (h : r = .ok a) : Yields e w0 (Web.lift r) a :=
  fun w hw => ⟨w, by rw [h]; rfl, hw⟩

theorem Yields.orErr {α : Type} {e : WebEnv} {w0 : World} {r : Option α} {a : α} (h : r = some a) : Yields e w0 (orErr r) a :=
  fun w hw => ⟨w, by rw [h]; rfl, hw⟩

theorem Yields.attempt {α : Type} {e : WebEnv} {w0 : World} {m : Web α} {a : α} (h : Yields e w0 m a) :
    Yields e w0 (Web.attempt m) (some a) := by
  intro w hw
  obtain ⟨w1, e1, h1⟩ := h w hw
  exact ⟨w1, by simp only [Web.attempt, e1], h1⟩

/-- A file is read. -/
theorem yields_readBytes {e : WebEnv} {w0 : World} (hff : e.faults = noFaults) {path bytes : Str}
    (h : (w0.fs.get path).map File.content = some bytes) : Yields e w0 (readBytes path) bytes := by
  intro w hw
  rw [← hw.same, Option.map_eq_some_iff] at h
  obtain ⟨f, hf, rfl⟩ := h
  exact ⟨_, readBytes_ok hff hf, hw.events, hw.script, hw.same, hw.young⟩

/-- The conditions under which the cache is used. -/
structure CacheUsable (e : WebEnv) : Prop where
  faults : e.faults = noFaults
  age : 0 ≤ e.cache.maxAge
  dir : (cleanElems e.cache.cacheDir).getLast? ≠ some b!".tmp"
  clock : ∀ k l, e.clock k - e.clock l < (e.cache.maxAge + 1) * 60000000000

theorem still_lookup {e : WebEnv} {w0 : World} (hu : CacheUsable e) {folder name bytes : Str} (hv : ValidKey e.cache folder name)
    (h : cachedBytes e.cache.cacheDir w0.fs folder name = some bytes) (w : World) (hw : Still e w0 w) :
    (getFile e.cache folder name (e.clock w.ops) noFaults w.ops w.fs).res = .ok (getFilePathInCache e.cache.cacheDir folder name, true) ∧
    Still e w0 { w with
      fs := (getFile e.cache folder name (e.clock w.ops) noFaults w.ops w.fs).fs,
      ops := (getFile e.cache folder name (e.clock w.ops) noFaults w.ops w.fs).step } := by
  unfold cachedBytes at h
  rw [← hw.same, Option.map_eq_some_iff] at h
  obtain ⟨f, hf, rfl⟩ := h
  obtain ⟨h1, -, h3⟩ := C07_lookup_existing e.cache folder name (e.clock w.ops) w.ops w.fs hv f hu.age hf
  obtain ⟨h1, h2⟩ := h1 (hw.young _ _ hf _)
  refine ⟨h1, hw.events, hw.script, fun p => ?_, fun p g hg k => ?_⟩
  · by_cases hp : p = getFilePathInCache e.cache.cacheDir folder name
    · subst hp
      rw [← hw.same, hf]
      simp only [h2, Option.map_some]
    · simp only
      rw [h3 p hp, hw.same]
  · by_cases hp : p = getFilePathInCache e.cache.cacheDir folder name
    · subst hp
      simp only at hg
      rw [h2] at hg
      injection hg with hg
      subst hg
      simp only
      split
      · exact hu.clock _ _
      · exact hw.young _ _ hf _
    · simp only at hg
      rw [h3 p hp] at hg
      exact hw.young _ _ hg _

theorem yields_getFile {e : WebEnv} {w0 : World} (hu : CacheUsable e) {folder name bytes : Str} (hv : ValidKey e.cache folder name)
    (h : cachedBytes e.cache.cacheDir w0.fs folder name = some bytes) :
    Yields e w0 (Web.files fun env now _ => getFile env folder name now) (getFilePathInCache e.cache.cacheDir folder name, true) := by
  intro w hw
  obtain ⟨h1, h2⟩ := still_lookup hu hv h w hw
  refine ⟨_, ?_, h2⟩
  unfold Web.files
  simp only [hu.faults, h1]
  rfl

theorem yields_download {e : WebEnv} {w0 : World} (hu : CacheUsable e) {folder name bytes : Str} (hv : ValidKey e.cache folder name)
    (h : cachedBytes e.cache.cacheDir w0.fs folder name = some bytes) (url : Str) :
    Yields e w0 (downloadAndCache url folder name) (getFilePathInCache e.cache.cacheDir folder name, false) :=
  (yields_getFile hu hv h).bind (.pure _)

theorem yields_article {e : WebEnv} {w0 : World} (hu : CacheUsable e) (c : WikiConf) (host title : Str) {bytes t text : Str}
    (h : cachedBytes e.cache.cacheDir w0.fs articleFolder (articleFile title) = some bytes) (hd : c.decodeArticle bytes = some (t, text)) :
    Yields e w0 (downloadArticle c host title) ⟨t, text, title⟩ :=
  (yields_download hu (validKey_article hu.dir title) h _).bind
    ((yields_readBytes hu.faults h).bind ((Yields.orErr hd).bind (.pure _)))

theorem yields_template {e : WebEnv} {w0 : World} (hu : CacheUsable e) (c : WikiConf) (hs : ∀ s, c.sha1hex s ∉ [b!"", b!".", b!".."])
    (template : Str) {text : Str}
    (h : (cachedTemplates c e.cache.cacheDir w0.fs).evaluate template (c.sha1hex template) = .ok text) :
    Yields e w0 (evaluateTemplate c template (c.sha1hex template)) text := by
  unfold cachedTemplates at h
  simp only at h
  split at h
  · rename_i t ht
    injection h with h
    subst h
    obtain ⟨bytes, hb, hd⟩ := Option.bind_eq_some_iff.mp ht
    have hv : ValidKey e.cache templateFolder (c.sha1hex template) := ⟨cache_folders_plain _ (by decide), by decide, hs _, hu.dir⟩
    exact (yields_download hu hv hb _).bind ((yields_readBytes hu.faults hb).bind (Yields.orErr hd))
  · cases h

theorem suffix_ok (name : Str) {suffix : Str} (h : 3 ≤ suffix.length) : name ++ suffix ∉ [b!"", b!".", b!".."] := by
  intro hm
  simp only [List.mem_cons, List.not_mem_nil, or_false] at hm
  have h0 : (b!"" : Str).length = 0 := by decide
  have h1 : (b!"." : Str).length = 1 := by decide
  have h2 : (b!".." : Str).length = 2 := by decide
  rcases hm with hm | hm | hm <;> (have := congrArg List.length hm; rw [List.length_append] at this; omega)

theorem yields_math {e : WebEnv} {w0 : World} (hu : CacheUsable e) (c : WikiConf) (hs : ∀ s, c.sha1hex s ∉ [b!"", b!".", b!".."])
    (decode : Str → Option SvgAttributes) (formula : Str) {r : Str × Str × Str × Str}
    (h : (cachedMath decode c e.cache.cacheDir w0.fs).math formula = .ok r) :
    Yields e w0 (mathPicture decode c e.cache.cacheDir formula) r := by
  unfold cachedMath at h
  simp only at h
  split at h
  · rename_i t ht
    injection h with h
    subst h
    obtain ⟨name, hb, hp⟩ := Option.bind_eq_some_iff.mp ht
    have hv : ValidKey e.cache mathFolder (c.sha1hex formula) := ⟨cache_folders_plain _ (by decide), by decide, hs _, hu.dir⟩
    have h1 : Yields e w0 (getMathResource c formula) name :=
      (yields_getFile hu hv hb).attempt.bind (yields_readBytes hu.faults hb)
    unfold cachedPicture at hp
    split at hp
    · rename_i a hsvg hconv
      obtain ⟨bytes, hb2, ha⟩ := Option.bind_eq_some_iff.mp hsvg
      injection hp with hp
      subst hp
      have h2 : Yields e w0 (renderMath c e.cache.cacheDir formula)
          (getFilePathInCache e.cache.cacheDir imageFolder (name ++ b!".svg"), getFilePathInCache e.cache.cacheDir imageFolder (name ++ b!".svg")) := by
        refine h1.bind ((yields_download hu (validKey_image hu.dir (suffix_ok _ (by decide))) hb2 _).bind ?_)
        simp only [hconv]
        exact .pure _
      exact h2.bind (((yields_readBytes hu.faults hb2).bind (Yields.orErr ha)).bind (.pure _))
    · rename_i a hsvg hconv
      obtain ⟨bytes, hb2, ha⟩ := Option.bind_eq_some_iff.mp hsvg
      obtain ⟨bytes3, hb3, hp⟩ := Option.map_eq_some_iff.mp hp
      subst hp
      have h2 : Yields e w0 (renderMath c e.cache.cacheDir formula)
          (getFilePathInCache e.cache.cacheDir imageFolder (name ++ b!".svg"), getFilePathInCache e.cache.cacheDir imageFolder (name ++ b!".png")) := by
        refine h1.bind ((yields_download hu (validKey_image hu.dir (suffix_ok _ (by decide))) hb2 _).bind ?_)
        simp only [hconv]
        exact (yields_download hu (validKey_image hu.dir (suffix_ok _ (by decide))) hb3 _).bind (.pure _)
      exact h2.bind (((yields_readBytes hu.faults hb2).bind (Yields.orErr ha)).bind (.pure _))
    · cases hp
  · cases h

theorem afterColon_some (title : Str) (h : (0x3A : Byte) ∈ title) : ∃ y, afterColon title = .ok y := by
  have hs := List.append_of_mem h
  obtain ⟨a, b, rfl⟩ := hs
  unfold afterColon
  rw [show (b!":" : Str) = [0x3A] from rfl, split_append a b]
  have h1 := split_ne_nil (sep := [(0x3A : Byte)]) a (by simp)
  have h2 := split_ne_nil (sep := [(0x3A : Byte)]) b (by simp)
  rcases h3 : split a [(0x3A : Byte)] with _ | ⟨x, l⟩
  · exact absurd h3 h1
  · rcases h4 : split b [(0x3A : Byte)] with _ | ⟨y, m⟩
    · exact absurd h4 h2
    · rcases l with _ | ⟨z, l⟩ <;> exact ⟨_, rfl⟩

theorem imageUrl_ok (c : WikiConf) (hmd : ∀ s, 2 ≤ (c.md5hex s).length) (host name : Str) : ∃ url, imageUrl c host name = .ok url := by
  obtain ⟨a, b, l, h⟩ : ∃ a b l, c.md5hex name = a :: b :: l := by
    have := hmd name
    generalize c.md5hex name = m at this ⊢
    rcases m with _ | ⟨a, _ | ⟨b, l⟩⟩
    · simp at this
    · simp at this
    · exact ⟨a, b, l, rfl⟩
  unfold imageUrl
  simp only [h]
  exact ⟨_, rfl⟩

/-- The sums of the configuration are usable: names of files from SHA1 sums, and at least two digits of MD5 sums. -/
structure SumsUsable (c : WikiConf) : Prop where
  sha1 : ∀ s, c.sha1hex s ∉ [b!"", b!".", b!".."]
  md5 : ∀ s, 2 ≤ (c.md5hex s).length

theorem yields_image {e : WebEnv} {w0 : World} (hu : CacheUsable e) (c : WikiConf) (hs : SumsUsable c) (host : Str) (hosts : List Str)
    (hh : c.imageArticleHosts = host :: hosts) (image : Str) (h : ImageCached c e.cache.cacheDir w0.fs image) :
    Yields e w0 (downloadImageUsingAllSources c e.cache.cacheDir image) () := by
  obtain ⟨name, hnm, hn, ⟨bytes, title, text, ha, hd, ht⟩, hi, hc⟩ := h
  obtain ⟨actual, hact⟩ := afterColon_some title ht
  obtain ⟨url, hurl⟩ := imageUrl_ok c hs.md5 host (underscores actual)
  obtain ⟨picture, hpic⟩ := Option.isSome_iff_exists.mp hi
  have hdl : Yields e w0 (downloadImage c host image)
      (getFilePathInCache e.cache.cacheDir b!"images" (underscores name), false) := by
    refine (Yields.lift (afterColon_of_named hnm)).bind ?_
    refine (yields_article hu c host (b!"File:" ++ name) ha hd).bind ?_
    refine (Yields.lift (afterColon_file hnm.1)).bind ?_
    refine (Yields.lift hact).bind ((Yields.lift hurl).bind ?_)
    refine (yields_download hu (validKey_image hu.dir (underscores_ok hn)) hpic url).bind ?_
    exact (Yields.pure ()).bind (.pure _)
  unfold downloadImageUsingAllSources
  rw [hh]
  refine hdl.attempt.bind ?_
  show Yields e w0 (postProcessImage c e.cache.cacheDir _ false) ()
  unfold postProcessImage
  have hconv : ∃ q, Yields e w0 (convertIfNeeded (getFilePathInCache e.cache.cacheDir b!"images" (underscores name)) false
      (conversionFor c (getFilePathInCache e.cache.cacheDir b!"images" (underscores name)))) (q, false) := by
    unfold convertIfNeeded
    split
    · rename_i hne
      rcases hc with hc | hc
      · exact absurd hc hne
      · refine ⟨_, Yields.bind (a := true) ?_ (.pure _)⟩
        intro w hw
        refine ⟨w, ?_, hw⟩
        unfold pathExists pngPath
        have := hw.same (getFilePathInCache e.cache.cacheDir b!"images" (underscores name) ++ b!".png")
        rw [← Option.isSome_map (f := File.content), this, Option.isSome_map, hc]
    · exact ⟨_, .pure _⟩
  obtain ⟨q, hq⟩ := hconv
  exact hq.bind (.pure _)

theorem yields_images {e : WebEnv} {w0 : World} (hu : CacheUsable e) (c : WikiConf) (hs : SumsUsable c) (host : Str) (hosts : List Str)
    (hh : c.imageArticleHosts = host :: hosts) (images : List Str) (h : ∀ i ∈ images, ImageCached c e.cache.cacheDir w0.fs i) :
    Yields e w0 (downloadImages c e.cache.cacheDir images) () := by
  induction images with
  | nil => exact .pure _
  | cons i l ih =>
    exact (yields_image hu c hs host hosts hh i (h i List.mem_cons_self)).bind (ih fun j hj => h j (List.mem_cons_of_mem _ hj))

/-! ### The page -/

/-- If the computation without effects has a result, then the run has the same one, and changes nothing. -/
def Follows {α : Type} (e : WebEnv) (w0 : World) (m : Model.Run α) (r : Option (Res α)) : Prop :=
  ∀ a, r = some (.ok a) → ∀ w, Still e w0 w → ∃ w', m e w = some (.ok a, w') ∧ Still e w0 w'

theorem Follows.pure {α : Type} {e : WebEnv} {w0 : World} (a : α) : Follows e w0 (Pure.pure a) (some (.ok a)) := by
  intro b hb w hw
  injection hb with hb
  injection hb with hb
  subst hb
  exact ⟨w, rfl, hw⟩

theorem Follows.result {α : Type} {e : WebEnv} {w0 : World} (r : Option (Res α)) : Follows e w0 (Run.pureResult r) r := by
  intro b hb w hw
  subst hb
  exact ⟨w, rfl, hw⟩

theorem Follows.fails {α : Type} {e : WebEnv} {w0 : World} (m : Model.Run α) {r : Option (Res α)} (h : ∀ a, r ≠ some (.ok a)) :
    Follows e w0 m r := fun a ha => absurd ha (h a)

theorem Follows.call {α : Type} {e : WebEnv} {w0 : World} {m : Web α} {r : Res α} (h : ∀ a, r = .ok a → Yields e w0 m a) :
    Follows e w0 (Run.call m) (some r) := by
  intro a ha w hw
  injection ha with ha
  obtain ⟨w', h1, h2⟩ := h a ha w hw
  exact ⟨w', by unfold Run.call; rw [h1], h2⟩

theorem Follows.bind {α β : Type} {e : WebEnv} {w0 : World} {m : Model.Run α} {f : α → Model.Run β} {r : ExpM α} {g : α → ExpM β}
    (hm : Follows e w0 m r) (hf : ∀ a, r = some (.ok a) → Follows e w0 (f a) (g a)) : Follows e w0 (m >>= f) (r >>= g : ExpM β) := by
  intro b hb w hw
  rcases r with _ | a | _ | _ | _
  · cases hb
  · obtain ⟨w1, h1, hw1⟩ := hm a rfl w hw
    obtain ⟨w2, h2, hw2⟩ := hf a rfl b hb w1 hw1
    refine ⟨w2, ?_, hw2⟩
    show (match m e w with
      | none => none
      | some (.ok a, w') => f a e w'
      | some (.err, w') => some (.err, w')
      | some (.panic, w') => some (.panic, w')
      | some (.fatal, w') => some (.fatal, w')
      | some (.waiting, w') => some (.waiting, w')) = _
    rw [h1]
    exact h2
  · cases hb
  · cases hb
  · cases hb

theorem follows_mapM {α β : Type} {e : WebEnv} {w0 : World} {f : α → Model.Run β} {g : α → ExpM β} (h : ∀ a, Follows e w0 (f a) (g a))
    (l : List α) : Follows e w0 (Run.mapM f l) (ExpM.mapM g l) := by
  induction l with
  | nil => exact .pure _
  | cons a l ih => exact (h a).bind fun _ _ => ih.bind fun _ _ => .pure _

theorem follows_loop {e : WebEnv} {w0 : World} {f : Str → Model.Run Str} {g : Str → ExpM Str} (h : ∀ key, Follows e w0 (f key) (g key))
    (content rest : Str) (skip i : Nat) (segment : Option Nat) (new : Str) :
    Follows e w0 (expandLoopRun f content rest skip i segment new) (expandLoop expandSimpleString g content rest skip i segment new) := by
  induction rest generalizing skip i segment new with
  | nil => rw [expandLoopRun, expandLoop]; exact .pure _
  | cons c t ih =>
    cases skip with
    | succ skip => rw [expandLoopRun, expandLoop]; exact ih _ _ _ _
    | zero =>
      rw [expandLoopRun, expandLoop]
      split
      · rcases findClose content (i + 2) b!"$$" b!"$$" with _ | stop
        · exact .result _
        · exact (h _).bind fun x _ => ih _ _ _ _
      · exact ih _ _ _ _

theorem follows_table {e : WebEnv} {w0 : World} {f : Str → Model.Run Str} {g : Str → ExpM Str} (h : ∀ s, Follows e w0 (f s) (g s))
    (rows : List (List TableCol)) (caption : Str) : Follows e w0 (expandTableRun f rows caption) (expandTable g rows caption) := by
  refine (follows_mapM (fun row => ?_) rows).bind fun _ _ => (h caption).bind fun _ _ => .pure _
  refine (follows_mapM (fun col => ?_) row).bind fun _ _ => .pure _
  exact (h _).bind fun _ _ => .pure _

mutual
theorem follows_list {e : WebEnv} {w0 : World} {f : Str → Model.Run Str} {g : Str → ExpM Str} (h : ∀ s, Follows e w0 (f s) (g s)) :
    (l : ListTok) → Follows e w0 (expandListRun f l) (expandList g l)
  | .mk kind items => by
    rw [expandListRun, expandList]
    exact (follows_items h items).bind fun _ _ => .pure _
theorem follows_items {e : WebEnv} {w0 : World} {f : Str → Model.Run Str} {g : Str → ExpM Str} (h : ∀ s, Follows e w0 (f s) (g s)) :
    (l : List ItemTok) → Follows e w0 (expandItemsRun f l) (expandItems g l)
  | [] => by rw [expandItemsRun, expandItems]; exact .pure _
  | item :: rest => by
    rw [expandItemsRun, expandItems]
    exact (follows_item h item).bind fun _ _ => (follows_items h rest).bind fun _ _ => .pure _
theorem follows_item {e : WebEnv} {w0 : World} {f : Str → Model.Run Str} {g : Str → ExpM Str} (h : ∀ s, Follows e w0 (f s) (g s)) :
    (l : ItemTok) → Follows e w0 (expandItemRun f l) (expandItem g l)
  | .mk type content subLists => by
    rw [expandItemRun, expandItem]
    exact (h _).bind fun _ _ => (follows_subLists h subLists).bind fun _ _ => .pure _
theorem follows_subLists {e : WebEnv} {w0 : World} {f : Str → Model.Run Str} {g : Str → ExpM Str} (h : ∀ s, Follows e w0 (f s) (g s)) :
    (l : List ListTok) → Follows e w0 (expandSubListsRun f l) (expandSubLists g l)
  | [] => by rw [expandSubListsRun, expandSubLists]; exact .pure _
  | l :: rest => by
    rw [expandSubListsRun, expandSubLists]
    exact (follows_list h l).bind fun _ _ => (follows_subLists h rest).bind fun _ _ => .pure _
end

/-- The picture of a formula in a page. -/
def mathTag (r : Str × Str × Str × Str) : Str :=
  b!"<img alt=\"image\" src=\"./" ++ escapePathComponents r.1 ++ b!"\" style=\"width: " ++ r.2.1 ++ b!"; height: " ++ r.2.2.1 ++ b!"; " ++
    r.2.2.2 ++ b!"\">"

theorem follows_token {e : WebEnv} {w0 : World} (c : WikiConf) (decode : Str → Option SvgAttributes) (dir : Str) (html : HtmlEnv)
    (hc : html.conf = c) (hm : ∀ formula a, html.math formula = .ok a → Yields e w0 (mathPicture decode c dir formula) a)
    {f : Str → Model.Run Str} {g : Str → ExpM Str} (h : ∀ s, Follows e w0 (f s) (g s)) (token : Token) :
    Follows e w0 (expandTokenRun decode c dir f token) (expandToken html g token) := by
  subst hc
  cases token with
  | heading content depth => exact (h _).bind fun _ _ => .pure _
  | inlineImage filename x y => exact .pure _
  | image filename caption x y => exact (h _).bind fun _ _ => .pure _
  | externalLink url text => exact (h _).bind fun _ _ => .pure _
  | internalLink article text => exact h _
  | list l => exact follows_list h l
  | table rows caption => exact follows_table h rows caption
  | math content =>
    have h1 : Follows e w0 (Run.call (mathPicture decode html.conf dir content)) (some (html.math content)) := .call (hm content)
    have h2 : ∀ r : Str × Str × Str × Str, Follows e w0 (Pure.pure (mathTag r)) (some (.ok (mathTag r))) := fun r => .pure _
    have := h1.bind (f := fun r => Pure.pure (mathTag r)) (g := fun r => (some (.ok (mathTag r)) : ExpM Str)) fun r _ => h2 r
    intro b hb
    refine this b ?_
    rw [← hb, expandToken]
    rcases html.math content with r | _ | _ | _ <;> rfl
  | refDefinition index content => exact (h _).bind fun _ _ => .pure _
  | refUsage index => exact .pure _
  | nowiki content => exact .pure _
  | string content => exact .pure _

theorem follows_expand {e : WebEnv} {w0 : World} (hu : CacheUsable e) (c : WikiConf) (hs : SumsUsable c)
    (decode : Str → Option SvgAttributes) (tokens : List (Str × Token)) (fuel : Nat) (content : Str) :
    Follows e w0 (expandStringRun decode c e.cache.cacheDir tokens fuel content)
      (expandString (cachedMath decode c e.cache.cacheDir w0.fs) tokens fuel content) := by
  induction fuel generalizing content with
  | zero => exact .result _
  | succ fuel ih =>
    rw [expandStringRun, expandString]
    split
    · refine follows_loop (fun key => ?_) _ _ _ _ _ _
      unfold expandKeyRun expandKey
      rcases lookupToken tokens (b!"$$" ++ key ++ b!"$$") with _ | token
      · exact .result _
      · exact follows_token c decode _ _ rfl (fun _ _ ha => yields_math hu c hs.sha1 decode _ ha) ih _
    · exact .pure _

theorem follows_template {e : WebEnv} {w0 : World} (c : WikiConf) (t : TemplateEnv)
    (ht : ∀ text a, t.evaluate text (c.sha1hex text) = .ok a → Yields e w0 (evaluateTemplate c text (c.sha1hex text)) a) {α : Type}
    {m : Model.Run (Str × TemplateState)} {r : Option (Res (Str × TemplateState))} (hm : Follows e w0 m r)
    (f : Str × TemplateState → Str → Model.Run α) (g : Str × TemplateState → Str → Option (Res α)) (hf : ∀ p a, Follows e w0 (f p a) (g p a)) :
    Follows e w0 (m >>= fun p => Run.call (evaluateTemplate c (b!"{{" ++ p.1) (c.sha1hex (b!"{{" ++ p.1))) >>= fun a => f p a)
      (match (generalizing := false) r with
        | none => none
        | some (.ok (inner, st)) =>
          match t.evaluate (b!"{{" ++ inner) (c.sha1hex (b!"{{" ++ inner)) with
          | .ok a => g (inner, st) a
          | .err => some .err
          | .panic => some .panic
          | .fatal => some .fatal
        | some .err => some .err
        | some .panic => some .panic
        | some .fatal => some .fatal) := by
  have h1 : ∀ x : Str, Follows e w0 (Run.call (evaluateTemplate c x (c.sha1hex x))) (some (t.evaluate x (c.sha1hex x))) :=
    fun x => .call (ht x)
  have h2 := fun p : Str × TemplateState => (h1 (b!"{{" ++ p.1)).bind (f := f p) (g := fun a => (g p a : ExpM α)) fun a _ => hf p a
  have := hm.bind (g := fun p => ((some (t.evaluate (b!"{{" ++ p.1) (c.sha1hex (b!"{{" ++ p.1))) : ExpM Str) >>= fun a => (g p a : ExpM α) : ExpM α))
    fun p _ => h2 p
  intro b hb
  refine this b ?_
  rw [← hb]
  rcases r with _ | ⟨inner, st⟩ | _ | _ | _
  · rfl
  · show ((some (t.evaluate (b!"{{" ++ inner) (c.sha1hex (b!"{{" ++ inner))) : ExpM Str) >>= fun a => (g (inner, st) a : ExpM α) : ExpM α) = _
    simp only
    rcases t.evaluate (b!"{{" ++ inner) (c.sha1hex (b!"{{" ++ inner)) with a | _ | _ | _ <;> rfl
  · rfl
  · rfl
  · rfl

theorem follows_placeholders {e : WebEnv} {w0 : World} (c : WikiConf) (t : TemplateEnv) (hh : t.hash = c.sha1hex)
    (ht : ∀ text a, t.evaluate text (c.sha1hex text) = .ok a → Yields e w0 (evaluateTemplate c text (c.sha1hex text)) a) (fuel : Nat)
    (content : Str) (i : Nat) (st : TemplateState) :
    Follows e w0 (placeholderRun c fuel content i st) (placeholderLoop t fuel content i st) := by
  induction fuel generalizing content i st with
  | zero => exact .result _
  | succ fuel ih =>
    rw [placeholderRun, placeholderLoop]
    split
    · split
      · rcases findClose content (i + 2) b!"{{" b!"}}" with _ | endIndex
        · exact .result _
        · have hi : Follows e w0
              (if contains (((content.take (endIndex + 2)).drop i).drop 2) b!"{{" then
                placeholderRun c fuel (((content.take (endIndex + 2)).drop i).drop 2) 0 st
              else Pure.pure (((content.take (endIndex + 2)).drop i).drop 2, st))
              (if contains (((content.take (endIndex + 2)).drop i).drop 2) b!"{{" then
                placeholderLoop t fuel (((content.take (endIndex + 2)).drop i).drop 2) 0 st
              else some (.ok (((content.take (endIndex + 2)).drop i).drop 2, st))) := by
            split
            · exact ih _ _ _
            · exact .pure _
          have := follows_template c t ht hi
            (fun p a => placeholderRun c fuel (replaceFirst ((content.take (endIndex + 2)).drop i)
              (templatePlaceholder (c.sha1hex (b!"{{" ++ p.1))) content) (i + 1)
              ⟨p.2.calls ++ [(b!"{{" ++ p.1, c.sha1hex (b!"{{" ++ p.1))], setResult p.2.results (c.sha1hex (b!"{{" ++ p.1)) a⟩)
            (fun p a => placeholderLoop t fuel (replaceFirst ((content.take (endIndex + 2)).drop i)
              (templatePlaceholder (c.sha1hex (b!"{{" ++ p.1))) content) (i + 1)
              ⟨p.2.calls ++ [(b!"{{" ++ p.1, c.sha1hex (b!"{{" ++ p.1))], setResult p.2.results (c.sha1hex (b!"{{" ++ p.1)) a⟩)
            fun p a => ih _ _ _
          simp only [hh]
          by_cases hb : contains (((content.take (endIndex + 2)).drop i).drop 2) b!"{{" = true
          · rw [if_pos hb, if_pos hb] at this
            rw [if_pos hb, if_pos hb]
            exact this
          · rw [if_neg hb, if_neg hb] at this
            rw [if_neg hb, if_neg hb]
            exact this
      · exact ih _ _ _
    · exact .pure _

theorem follows_tokenize {e : WebEnv} {w0 : World} (hu : CacheUsable e) (env : ParserEnv) (c : WikiConf) (hs : SumsUsable c)
    (iterate : Nat → List (Str × Str) → List (Str × Str)) (fuel : Nat) (content : Str) :
    Follows e w0 (tokenizeRun env c iterate fuel content)
      (tokenizeArticle env (cachedTemplates c e.cache.cacheDir w0.fs) iterate fuel content) := by
  have := (Follows.result (e := e) (w0 := w0) (cleanText env fuel content)).bind
    (f := fun content => evaluateTemplatesRun c iterate fuel content >>= fun content => Run.pureResult (cleanText env fuel content) >>= fun content =>
      Run.pureResult (tokenizeContent env fuel content TokState.initial))
    (g := fun content => ((placeholderLoop (cachedTemplates c e.cache.cacheDir w0.fs) fuel content 0 ⟨[], []⟩ >>= fun p =>
        (resolvePlaceholders iterate p.2.results fuel 0 p.1).map .ok : ExpM Str) >>= fun content => (cleanText env fuel content : ExpM Str) >>= fun content =>
      tokenizeContent env fuel content TokState.initial : ExpM _))
    fun _ _ => ((follows_placeholders c _ rfl (fun _ _ ha => yields_template hu c hs.sha1 _ ha) _ _ _ _).bind fun _ _ => .result _).bind fun _ _ => (Follows.result _).bind fun _ _ => .result _
  intro a ha
  refine this a ?_
  rw [← ha]
  unfold tokenizeArticle evaluateTemplates
  rcases cleanText env fuel content with _ | content | _ | _ | _
  · rfl
  · simp only
    show ((placeholderLoop (cachedTemplates c e.cache.cacheDir w0.fs) fuel content 0 ⟨[], []⟩ >>= fun p =>
        (resolvePlaceholders iterate p.2.results fuel 0 p.1).map .ok : ExpM Str) >>= fun content => (cleanText env fuel content : ExpM Str) >>= fun content =>
      tokenizeContent env fuel content TokState.initial : ExpM _) = _
    rcases placeholderLoop (cachedTemplates c e.cache.cacheDir w0.fs) fuel content 0 ⟨[], []⟩ with _ | ⟨content, st⟩ | _ | _ | _
    · rfl
    · simp only
      show (((resolvePlaceholders iterate st.results fuel 0 content).map .ok : ExpM Str) >>= fun content => (cleanText env fuel content : ExpM Str) >>= fun content =>
        tokenizeContent env fuel content TokState.initial : ExpM _) = _
      rcases resolvePlaceholders iterate st.results fuel 0 content with _ | content
      · rfl
      · simp only [Option.map_some]
        show ((cleanText env fuel content : ExpM Str) >>= fun content => tokenizeContent env fuel content TokState.initial : ExpM _) = _
        rcases cleanText env fuel content with _ | content | _ | _ | _ <;> rfl
    · rfl
    · rfl
    · rfl
  · rfl
  · rfl
  · rfl

/-- If the article, the answers to its templates, its images and the pictures of its formulas are in the cache and nothing is outdated,
then the page is generated without any request: it is the page that these answers give, and no file changes its content. -/
theorem C77_page_from_the_cache (env : ParserEnv) (c : WikiConf) (hs : SumsUsable c) (decode : Str → Option SvgAttributes)
    (iterate : Nat → List (Str × Str) → List (Str × Str)) (fuel : Nat) (style article : Str) (e : WebEnv) (w : World)
    (hff : e.faults = noFaults) (hmax : 0 ≤ e.cache.maxAge) (hd : (cleanElems e.cache.cacheDir).getLast? ≠ some b!".tmp")
    (hage : NothingOutdated e w.fs) (host : Str) (hosts : List Str) (hh : c.imageArticleHosts = host :: hosts)
    (bytes title text page : Str)
    (harticle : cachedBytes e.cache.cacheDir w.fs b!"articles" (underscores article ++ b!".json") = some bytes)
    (htext : c.decodeArticle bytes = some (title, text))
    (himages : ∀ content s, tokenizeArticle env (cachedTemplates c e.cache.cacheDir w.fs) iterate fuel text = some (.ok (content, s)) →
      ∀ image ∈ s.images, ImageCached c e.cache.cacheDir w.fs image)
    (hpage : articleHtml env (cachedTemplates c e.cache.cacheDir w.fs) iterate (cachedMath decode c e.cache.cacheDir w.fs) fuel style
      article text = some (.ok page)) :
    ∃ w', articleRun env c decode e.cache.cacheDir iterate fuel style article e w = some (.ok page, w') ∧
      w'.events = w.events ∧ ∀ path, (w'.fs.get path).map File.content = (w.fs.get path).map File.content := by
  have hu : CacheUsable e := ⟨hff, hmax, hd, hage.2⟩
  have h0 : Still e w w := ⟨rfl, rfl, fun _ => rfl, hage.1⟩
  unfold articleHtml at hpage
  split at hpage
  · rename_i content s htok
    have := (Follows.call (e := e) (w0 := w) (m := downloadArticle c (c.wikiInstance ++ b!"." ++ c.host) article) (r := .ok ⟨title, text, article⟩)
      (fun a ha => by cases ha; exact yields_article hu c _ article harticle htext)).bind
      (f := fun dto => tokenizeRun env c iterate fuel dto.content >>= fun p => Run.call (downloadImages c e.cache.cacheDir p.2.images) >>= fun _ =>
        expandStringRun decode c e.cache.cacheDir p.2.tokenMap fuel p.1 >>= fun body =>
          Pure.pure (htmlHeader style ++ b!"\n<h1>" ++ dto.originalTitle ++ b!"</h1>\n" ++ body ++ htmlFooter))
      (g := fun dto => ((tokenizeArticle env (cachedTemplates c e.cache.cacheDir w.fs) iterate fuel dto.content : ExpM _) >>= fun p =>
        ((some (.ok ()) : ExpM Unit) >>= fun _ =>
        (expandString (cachedMath decode c e.cache.cacheDir w.fs) p.2.tokenMap fuel p.1 : ExpM Str) >>= fun body =>
          (some (.ok (htmlHeader style ++ b!"\n<h1>" ++ dto.originalTitle ++ b!"</h1>\n" ++ body ++ htmlFooter)) : ExpM Str))))
      fun dto hdto => by
        cases hdto
        exact (follows_tokenize hu env c hs iterate fuel _).bind fun p hp =>
          (Follows.call fun _ _ => yields_images hu c hs host hosts hh _ (himages p.1 p.2 hp)).bind fun _ _ =>
            (follows_expand hu c hs decode _ _ _).bind fun _ _ => .pure _
    obtain ⟨w', h1, h2⟩ := this page (by
      rw [← hpage]
      show ((tokenizeArticle env (cachedTemplates c e.cache.cacheDir w.fs) iterate fuel text : ExpM _) >>= fun p =>
        ((some (.ok ()) : ExpM Unit) >>= fun _ =>
        (expandString (cachedMath decode c e.cache.cacheDir w.fs) p.2.tokenMap fuel p.1 : ExpM Str) >>= fun body =>
          (some (.ok (htmlHeader style ++ b!"\n<h1>" ++ article ++ b!"</h1>\n" ++ body ++ htmlFooter)) : ExpM Str)) : ExpM Str) = _
      rw [htok]
      rfl) w h0
    exact ⟨w', h1, h2.events, h2.same⟩
  all_goals cases hpage

/-- A cache with one article and its template; the server gives no answers. -/
def offlineWorld : World := ⟨[(b!"/c/articles/A_b.json", ⟨b!"A b|Walk {{n}} km.", 100⟩), (b!"/c/templates/cd", ⟨b!"3", 100⟩)], 0, [], []⟩

/-- The page of this article. -/
def offlinePage : Str := htmlHeader b!"s.css" ++ b!"\n<h1>A b</h1>\nWalk 3 km." ++ htmlFooter

theorem offline_images : ((tokenizeArticle exampleEnv (cachedTemplates (demoConf [b!"commons"]) b!"/c" offlineWorld.fs) (fun _ l => l) 100
    b!"Walk {{n}} km.").map fun r => match r with | .ok p => p.2.images | _ => []) = some [] := by decide +kernel

example : ∃ w', articleRun exampleEnv (demoConf [b!"commons"]) demoDecode b!"/c" (fun _ l => l) 100 b!"s.css" b!"A b" (demoWebBig ⟨true, none⟩) offlineWorld =
    some (.ok offlinePage, w') ∧ w'.events = [] := by
  obtain ⟨w', h1, h2, -⟩ := C77_page_from_the_cache exampleEnv (demoConf [b!"commons"])
    ⟨fun _ => show b!"cd" ∉ _ by decide, fun _ => show 2 ≤ b!"ab".length by decide⟩ demoDecode (fun _ l => l) 100 b!"s.css" b!"A b"
    (demoWebBig ⟨true, none⟩) offlineWorld rfl (by decide) (by decide)
    ⟨fun p f hf k => (show ∀ p ∈ offlineWorld.fs, (100 : Int) - p.2.mtime < (60 + 1) * 60000000000 by decide) _ (FSl.mem_of_get hf),
      fun _ _ => show (100 : Int) - 100 < (60 + 1) * 60000000000 by decide⟩
    b!"commons" [] rfl b!"A b|Walk {{n}} km." b!"A b" b!"Walk {{n}} km." offlinePage (by decide +kernel) (by decide +kernel)
    (fun content s h image hi => by
      have hs := (congrArg _ h).symm.trans offline_images
      simp only [Option.map_some, Option.some.injEq] at hs
      rw [hs] at hi
      cases hi)
    (by decide +kernel)
  exact ⟨w', h1, h2⟩

end Verif.Props
