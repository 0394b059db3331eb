import Verif.Props.Wikipedia
import Verif.Spec.Images

/-!
# The files of several images
-/

namespace Verif.Lemmas

open Verif.Go Verif.Model Verif.Spec Verif.Props FSl

/-- `m` keeps the file `p` and keeps the file system well formed. -/
def Keeps {α : Type} (e : WebEnv) (p : Str) (m : Web α) : Prop :=
  ∀ w, w.fs.WF → (m e w).2.fs.WF ∧ ((w.fs.get p).isSome = true → ((m e w).2.fs.get p).isSome = true)

namespace Keeps
variable {α β : Type} {e : WebEnv} {p : Str}

theorem of_same {m : Web α} (h : ∀ w, (m e w).2.fs = w.fs) : Keeps e p m := by
  intro w hw
  rw [h w]
  exact ⟨hw, id⟩

theorem pure (a : α) : Keeps e p (Pure.pure a : Web α) := of_same fun _ => rfl

theorem bind {m : Web α} {f : α → Web β} (hm : Keeps e p m) (hf : ∀ a, Keeps e p (f a)) : Keeps e p (m >>= f) := by
  intro w hw
  have h1 := hm w hw
  rcases h : m e w with ⟨o, w'⟩
  rw [h] at h1
  cases o with
  | ok a =>
    rw [web_bind_ok h]
    obtain ⟨h2, h3⟩ := hf a w' h1.1
    exact ⟨h2, fun hp => h3 (h1.2 hp)⟩
  | err => rw [web_bind_err h]; exact h1
  | panic => rw [web_bind_panic h]; exact h1
  | fatal => rw [web_bind_fatal h]; exact h1
  | waiting => rw [web_bind_waiting h]; exact h1

theorem lift (r : Res α) : Keeps e p (Web.lift r) := of_same fun _ => rfl

theorem bind_lift {r : Res α} {f : α → Web β} (h : ∀ a, r = .ok a → Keeps e p (f a)) : Keeps e p (Web.lift r >>= f) := by
  cases r with
  | ok a =>
    have : (Web.lift (.ok a) >>= f) = f a := by funext e w; exact web_bind_ok rfl
    rw [this]
    exact h a rfl
  | err => intro w hw; rw [web_bind_err (m := Web.lift .err) rfl]; exact ⟨hw, id⟩
  | panic => intro w hw; rw [web_bind_panic (m := Web.lift .panic) rfl]; exact ⟨hw, id⟩
  | fatal => intro w hw; rw [web_bind_fatal (m := Web.lift .fatal) rfl]; exact ⟨hw, id⟩

theorem orErr (o : Option α) : Keeps e p (Model.orErr o) := by
  cases o
  · exact of_same fun _ => rfl
  · exact pure _

theorem whenW {m : Web Unit} (b : Bool) (h : Keeps e p m) : Keeps e p (Model.whenW b m) := by
  unfold Model.whenW
  split
  · exact h
  · exact pure _

theorem readBytes (path : Str) : Keeps e p (Model.readBytes path) := by
  refine of_same fun w => ?_
  show (FsM.readFile path e.faults w.ops w.fs).fs = w.fs
  unfold FsM.readFile FsM.prim
  split
  · rfl
  · split
    · rename_i h
      simp only at h
      split at h <;> (cases h; rfl)

theorem put {fs : FS} (hw : fs.WF) (q : Str) (f : File) :
    (fs.put q f).WF ∧ ((fs.get p).isSome = true → ((fs.put q f).get p).isSome = true) := by
  refine ⟨WF_put hw _ _, fun h => ?_⟩
  by_cases hpq : p = q
  · subst hpq
    simp [get_put_self]
  · rw [get_put_ne hpq]
    exact h

theorem execute (args : List Str) (d out : Str) : Keeps e p (Model.execute args d out) := by
  intro w hw
  unfold Model.execute
  simp only
  split
  · exact put hw _ _
  · exact ⟨hw, id⟩

theorem svgToViewbox (c : WikiConf) (path : Str) : Keeps e p (Model.svgToViewbox c path) := by
  intro w hw
  unfold Model.svgToViewbox
  split
  · split
    · split
      · exact ⟨hw, id⟩
      · exact put hw _ _
    · exact ⟨hw, id⟩
  · exact ⟨hw, id⟩

theorem postProcessImage (c : WikiConf) (cacheDir path : Str) (fresh : Bool) :
    Keeps e p (Model.postProcessImage c cacheDir path fresh) := by
  unfold Model.postProcessImage
  refine bind ?_ ?_
  · unfold convertIfNeeded
    split
    · refine bind (of_same fun _ => rfl) fun b => ?_
      cases b with
      | true => exact pure _
      | false => exact bind (execute _ _ _) fun _ => pure _
    · exact pure _
  · rintro ⟨q, f⟩
    exact whenW _ (execute _ _ _)

/-- Without an eviction strategy a download keeps all other entries of the cache. -/
theorem downloadAndCache {url folder name folder' name' : Str} (hs : e.cache.strategy = .none)
    (hv : ValidKey e.cache folder name) (hv' : ValidKey e.cache folder' name') (hw : WalkOk e.cache)
    (hr : ∀ k, Digits (e.rnd k))
    (hne : getFilePathInCache e.cache.cacheDir folder' name' ≠ getFilePathInCache e.cache.cacheDir folder name) :
    Keeps e (getFilePathInCache e.cache.cacheDir folder' name') (Model.downloadAndCache url folder name) := by
  refine bind ?_ ?_
  · intro w hwf
    obtain ⟨h1, -, h3, -⟩ := lookup_facts hv hwf (lookup_state (ff := e.faults) (now := e.clock w.ops) hv w.ops)
    refine ⟨h1, fun hp => ?_⟩
    show ((getFile e.cache folder name (e.clock w.ops) e.faults w.ops w.fs).fs.get _).isSome = true
    rw [h3 _ hne]
    exact hp
  · rintro ⟨path, cached⟩
    cases cached with
    | true => exact pure _
    | false =>
      refine bind (bind (of_same fun _ => rfl) fun r => pure _) fun body => bind ?_ fun q => pure _
      intro w hwf
      refine ⟨?_, fun hp => ?_⟩
      · rcases write_state (ff := e.faults) (reader := body) (now := e.clock w.ops) hv (hr w.ops) hw hwf w.ops with h | h
        · exact (mid_facts hv (hr _) hwf h).1
        · exact (done_facts hv (hr _) hwf h).1
      · show ((cacheToFile e.cache folder name body (e.rnd w.ops) (e.clock w.ops) e.faults w.ops w.fs).fs.get _).isSome = true
        rw [C06_no_strategy_no_loss e.cache folder name body (e.rnd w.ops) (e.clock w.ops) e.faults w.ops w.fs hw hv (hr _) hwf hs
          _ (List.mem_append_right _ (List.mem_singleton_self _)) _ (temp_ne_out hv' (hr _)).symm hne]
        exact hp

end Keeps

theorem afterColon_named {image name : Str} (h : afterColon image = .ok name) : NamedBy image name := by
  unfold afterColon index at h
  rw [if_pos (by decide)] at h
  have hp : ∀ q ∈ split image b!":", (0x3A : Byte) ∉ q := fun q hq => not_mem_of_mem_split_singleton hq
  have hj := join_split_self (sep := b!":") image (by simp)
  match hsp : split image b!":", h with
  | [], h => cases h
  | [_], h => cases h
  | [a, n], h =>
    cases h
    rw [hsp] at hp hj
    exact ⟨hp _ (by simp), a, hp _ (by simp), .inl (by rw [← hj]; simp [join])⟩
  | a :: n :: r :: rs, h =>
    cases h
    rw [hsp] at hp hj
    exact ⟨hp _ (by simp), a, hp _ (by simp), .inr ⟨join b!":" (r :: rs), by rw [← hj]; simp [join]⟩⟩

theorem underscores_ok {name : Str} (h : name ∉ [b!"", b!".", b!".."]) : underscores name ∉ [b!"", b!".", b!".."] := by
  have hu := underscores_map name
  intro hm
  apply h
  rw [hu] at hm
  simp only [List.mem_cons, List.not_mem_nil, or_false] at hm ⊢
  have hdot : ∀ c : Byte, (if c = 0x20 then (0x5F : Byte) else c) = 0x2E → c = 0x2E := by
    intro c hc
    split at hc
    · exact absurd hc (by decide)
    · exact hc
  rcases hm with hm | hm | hm
  · exact .inl (List.map_eq_nil_iff.mp hm)
  · obtain ⟨a, rfl, ha⟩ := List.map_eq_singleton_iff.mp hm
    rw [hdot a ha]
    exact .inr (.inl rfl)
  · obtain ⟨a, t, rfl, ha, ht⟩ := List.map_eq_cons_iff.mp hm
    obtain ⟨b, rfl, hb⟩ := List.map_eq_singleton_iff.mp ht
    rw [hdot a ha, hdot b hb]
    exact .inr (.inr rfl)

theorem validKey_image {env : CacheEnv} (hd : (cleanElems env.cacheDir).getLast? ≠ some b!".tmp") {name : Str}
    (h : name ∉ [b!"", b!".", b!".."]) : ValidKey env imageFolder name :=
  ⟨cache_folders_plain _ (by decide), by decide, h, hd⟩

/-- The folders of the cache have different files. -/
theorem image_ne_article (d name title : Str) (h : name ∉ [b!"", b!".", b!".."]) :
    getFilePathInCache d imageFolder name ≠ getFilePathInCache d articleFolder (articleFile title) := by
  intro he
  have ha : articleFile title ∉ [b!"", b!".", b!".."] := by
    intro h
    simp only [List.mem_cons, List.not_mem_nil, or_false, articleFile] at h
    rcases h with h | h | h <;> (have := congrArg List.length h; simp at this)
  have := (C09_entry_paths_injective _ _ _ _ _ (cache_folders_plain imageFolder (by decide))
    (cache_folders_plain articleFolder (by decide)) h ha he).1
  exact absurd this (by decide)

/-- The article of an image has the requested title. -/
theorem downloadArticle_title {c : WikiConf} {e : WebEnv} {host title : Str} {w w' : World} {dto : ArticleDto}
    (h : downloadArticle c host title e w = (.ok dto, w')) : dto.originalTitle = title := by
  obtain ⟨⟨p, b⟩, w3, -, h⟩ := web_bind_inv h
  obtain ⟨bytes, w4, -, h⟩ := web_bind_inv h
  obtain ⟨⟨t, ct⟩, w5, -, h⟩ := web_bind_inv h
  cases h
  rfl

theorem afterColon_file {name : Str} (h : (0x3A : Byte) ∉ name) : afterColon (b!"File:" ++ name) = .ok name := by
  have := split_colon (a := b!"File") (by decide) h
  simpa using this

section
variable {c : WikiConf} {e : WebEnv} {image name other : Str}

theorem Keeps.downloadArticle (hs : e.cache.strategy = .none) (hw : WalkOk e.cache) (hr : ∀ k, Digits (e.rnd k))
    (hd : (cleanElems e.cache.cacheDir).getLast? ≠ some b!".tmp") (ho : other ∉ [b!"", b!".", b!".."]) (host title : Str) :
    Keeps e (getFilePathInCache e.cache.cacheDir imageFolder other) (Model.downloadArticle c host title) := by
  refine .bind (.downloadAndCache hs (validKey_article hd _) (validKey_image hd ho) hw hr (image_ne_article _ _ _ ho)) ?_
  rintro ⟨p, b⟩
  refine .bind (.readBytes _) fun bytes => .bind (.orErr _) ?_
  rintro ⟨t, content⟩
  exact .pure _

/-- Without an eviction strategy the download of an image keeps the other images. -/
theorem Keeps.downloadImage (hs : e.cache.strategy = .none) (hw : WalkOk e.cache) (hr : ∀ k, Digits (e.rnd k))
    (hd : (cleanElems e.cache.cacheDir).getLast? ≠ some b!".tmp") (ho : other ∉ [b!"", b!".", b!".."])
    (hi : afterColon image = .ok name) (hn : name ∉ [b!"", b!".", b!".."])
    (hne : getFilePathInCache e.cache.cacheDir imageFolder other ≠
      getFilePathInCache e.cache.cacheDir imageFolder (underscores name)) (host : Str) :
    Keeps e (getFilePathInCache e.cache.cacheDir imageFolder other) (Model.downloadImage c host image) := by
  have hcolon := (afterColon_named hi).1
  intro w hwf
  unfold Model.downloadImage
  rw [hi]
  have hlift : ∀ {β} (x : Str) (f : Str → Web β), (Web.lift (.ok x) >>= f) = f x := by
    intro β x f; funext e w; exact web_bind_ok rfl
  rw [hlift]
  have hk := Keeps.downloadArticle (c := c) hs hw hr hd ho host (b!"File:" ++ name) w hwf
  rcases hda : Model.downloadArticle c host (b!"File:" ++ name) e w with ⟨o, w3⟩
  rw [hda] at hk
  cases o with
  | ok dto =>
    rw [web_bind_ok hda, downloadArticle_title hda, afterColon_file hcolon, hlift]
    have := Keeps.bind_lift (e := e) (p := getFilePathInCache e.cache.cacheDir imageFolder other)
      (r := afterColon dto.title) (f := fun actualName => Web.lift (imageUrl c host (underscores actualName)) >>= fun url =>
        Model.downloadAndCache url imageFolder (underscores name) >>= fun x =>
          Model.whenW (x.2 && c.svgSizeToViewbox && ext x.1 == b!".svg") (Model.svgToViewbox c x.1) >>= fun _ =>
            (Pure.pure (x.1, x.2) : Web (Str × Bool)))
      (fun act _ => Keeps.bind_lift fun url _ =>
        .bind (.downloadAndCache hs (validKey_image hd (underscores_ok hn)) (validKey_image hd ho) hw hr hne)
          fun x => .bind (.whenW _ (.svgToViewbox _ _)) fun _ => .pure _) w3 hk.1
    exact ⟨this.1, fun hp => this.2 (hk.2 hp)⟩
  | err => rw [web_bind_err hda]; exact hk
  | panic => rw [web_bind_panic hda]; exact hk
  | fatal => rw [web_bind_fatal hda]; exact hk
  | waiting => rw [web_bind_waiting hda]; exact hk

/-- A successful download has stored the image under its name. -/
theorem downloadImage_stored (hw : WalkOk e.cache) (hr : ∀ k, Digits (e.rnd k))
    (hd : (cleanElems e.cache.cacheDir).getLast? ≠ some b!".tmp")
    (hi : afterColon image = .ok name) (hn : name ∉ [b!"", b!".", b!".."]) {host path : Str} {fresh : Bool} {w w' : World}
    (hwf : w.fs.WF) (h : Model.downloadImage c host image e w = (.ok (path, fresh), w')) :
    path = getFilePathInCache e.cache.cacheDir imageFolder (underscores name) ∧ (w'.fs.get path).isSome = true ∧ w'.fs.WF := by
  have hcolon := (afterColon_named hi).1
  unfold Model.downloadImage at h
  obtain ⟨n, wa, g1, h⟩ := web_bind_inv h
  rw [hi] at g1
  cases g1
  obtain ⟨dto, wb, g2, h⟩ := web_bind_inv h
  obtain ⟨orig, wc, g3, h⟩ := web_bind_inv h
  rw [downloadArticle_title g2, afterColon_file hcolon] at g3
  cases g3
  obtain ⟨act, wd, g4, h⟩ := web_bind_inv h
  obtain ⟨url, we, g5, h⟩ := web_bind_inv h
  obtain ⟨⟨p, f⟩, wf, g6, h⟩ := web_bind_inv h
  obtain ⟨u, wg, g7, h⟩ := web_bind_inv h
  cases h
  have hwb : wb.fs.WF := by
    have hk : KeepsWF e (Model.downloadArticle c host (b!"File:" ++ name)) := by
      refine .bind (.downloadAndCache (validKey_article hd _) hw hr) ?_
      rintro ⟨p, b⟩
      refine .bind (.readBytes _) fun bytes => .bind (.orErr _) ?_
      rintro ⟨t, content⟩
      exact .pure _
    have := hk w hwf
    rw [g2] at this
    exact this
  have hwe : we = wb := by
    have e1 : we = wd := (congrArg Prod.snd g5).symm
    have e2 : wd = wb := (congrArg Prod.snd g4).symm
    rw [e1, e2]
  subst hwe
  obtain ⟨k1, k2, k3⟩ := downloadAndCache_exists (validKey_image hd (underscores_ok hn)) hw hr hwb g6
  have := Keeps.whenW (e := e) (p := path) (fresh && c.svgSizeToViewbox && ext path == b!".svg") (.svgToViewbox c path) wf k3
  rw [g7] at this
  exact ⟨k1, this.2 k2, this.1⟩

/-- Without an eviction strategy a successful download of an image loses no image. -/
theorem downloadImageUsingAllSources_keeps (hs : e.cache.strategy = .none) (hw : WalkOk e.cache)
    (hr : ∀ k, Digits (e.rnd k)) (hd : (cleanElems e.cache.cacheDir).getLast? ≠ some b!".tmp")
    (ho : other ∉ [b!"", b!".", b!".."]) (hi : afterColon image = .ok name) (hn : name ∉ [b!"", b!".", b!".."])
    {w w' : World} (hwf : w.fs.WF) (hne : c.imageArticleHosts ≠ [])
    (hok : downloadImageUsingAllSources c e.cache.cacheDir image e w = (.ok (), w')) :
    w'.fs.WF ∧ ((w.fs.get (getFilePathInCache e.cache.cacheDir imageFolder other)).isSome = true →
      (w'.fs.get (getFilePathInCache e.cache.cacheDir imageFolder other)).isSome = true) := by
  obtain ⟨fails, host, post, path, fresh, w1, w2, -, h2, h3, h4⟩ :=
    C16_success_only_by_delivery c e _ _ w w' hne hok
  have hpost := Keeps.postProcessImage (e := e) (p := getFilePathInCache e.cache.cacheDir imageFolder other) c
    e.cache.cacheDir path fresh w2
  rw [h4] at hpost
  have hfails : ∀ {x : Str}, x ∉ [b!"", b!".", b!".."] → getFilePathInCache e.cache.cacheDir imageFolder x ≠
      getFilePathInCache e.cache.cacheDir imageFolder (underscores name) →
      w1.fs.WF ∧ ((w.fs.get (getFilePathInCache e.cache.cacheDir imageFolder x)).isSome = true →
        (w1.fs.get (getFilePathInCache e.cache.cacheDir imageFolder x)).isSome = true) := by
    intro x hx hp
    have hk := fun host => Keeps.downloadImage (c := c) hs hw hr hd hx hi hn hp host
    clear h3 hok
    induction h2 with
    | nil w => exact ⟨hwf, id⟩
    | @cons h hs wa wb wc hf _ ih =>
      have := hk h wa hwf
      rw [hf] at this
      obtain ⟨i1, i2⟩ := ih this.1
      exact ⟨i1, fun hp => i2 (this.2 hp)⟩
  by_cases hp : getFilePathInCache e.cache.cacheDir imageFolder other =
      getFilePathInCache e.cache.cacheDir imageFolder (underscores name)
  · have hx : underscores name ++ b!".png" ∉ [b!"", b!".", b!".."] :=
      (png_entry (cacheDir := e.cache.cacheDir) (cache_folders_plain imageFolder (by decide)) (underscores_ok hn)).2.2
    have hxne : getFilePathInCache e.cache.cacheDir imageFolder (underscores name ++ b!".png") ≠
        getFilePathInCache e.cache.cacheDir imageFolder (underscores name) := by
      intro he
      have := (C09_entry_paths_injective _ _ _ _ _ (cache_folders_plain imageFolder (by decide))
        (cache_folders_plain imageFolder (by decide)) hx (underscores_ok hn) he).2
      simp at this
    obtain ⟨k1, k2, k3⟩ := downloadImage_stored hw hr hd hi hn (hfails hx hxne).1 h3
    refine ⟨(hpost k3).1, fun _ => (hpost k3).2 ?_⟩
    rw [hp, ← k1]
    exact k2
  · have h5 := Keeps.downloadImage (c := c) hs hw hr hd ho hi hn hp host w1 (hfails ho hp).1
    rw [h3] at h5
    exact ⟨(hpost h5.1).1, fun h => (hpost h5.1).2 (h5.2 ((hfails ho hp).2 h))⟩

end

end Verif.Lemmas
