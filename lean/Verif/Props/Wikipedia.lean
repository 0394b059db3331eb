import Verif.Lemmas.Wikipedia

/-! # C16 – C18, C44: articles and images -/

namespace Verif.Props

open Verif.Go Verif.Model Verif.Spec Verif.Lemmas FSl

/-! ## C16: the order of the image sources -/

/-- All given hosts fail to deliver the image, one after the other; the world changes from `w` to `w'`. -/
inductive AllFail (c : WikiConf) (env : WebEnv) (image : Str) : List Str → World → World → Prop
  | nil (w) : AllFail c env image [] w w
  | cons {host hosts w w1 w2} : downloadImage c host image env w = (.err, w1) →
      AllFail c env image hosts w1 w2 → AllFail c env image (host :: hosts) w w2

/-- **C16** The first host that delivers the image wins: the later ones (`post`) play no role. -/
theorem C16_first_delivering_host_wins (c : WikiConf) (env : WebEnv) (cacheDir image host path : Str)
    (fresh : Bool) (pre post : List Str) (w w1 w2 : World) (hh : c.imageArticleHosts = pre ++ host :: post)
    (hpre : AllFail c env image pre w w1) (hhost : downloadImage c host image env w1 = (.ok (path, fresh), w2)) :
    downloadImageUsingAllSources c cacheDir image env w = postProcessImage c cacheDir path fresh env w2 := by
  unfold downloadImageUsingAllSources
  rw [hh]
  generalize false = failed
  clear hh
  induction hpre generalizing failed with
  | nil w =>
    rw [List.nil_append, tryHosts]
    exact web_bind_ok (web_attempt_ok hhost)
  | cons hf _ ih =>
    rw [List.cons_append, tryHosts]
    rw [web_bind_ok (web_attempt_err hf)]
    exact ih hhost true

/-- **C16** An error is reported if no host delivers. -/
theorem C16_error_if_no_host_delivers (c : WikiConf) (env : WebEnv) (cacheDir image : Str) (w w' : World)
    (hne : c.imageArticleHosts ≠ []) (hall : AllFail c env image c.imageArticleHosts w w') :
    downloadImageUsingAllSources c cacheDir image env w = (.err, w') := by
  unfold downloadImageUsingAllSources
  have key : ∀ hosts w failed, AllFail c env image hosts w w' → (hosts ≠ [] ∨ failed = true) →
      tryHosts c cacheDir image hosts failed env w = (.err, w') := by
    intro hosts
    induction hosts with
    | nil =>
      intro w failed h hor
      cases h
      have : failed = true := hor.resolve_left (by simp)
      subst this
      rfl
    | cons host hosts ih =>
      intro w failed h _
      cases h with
      | cons hf hrest =>
        rw [tryHosts, web_bind_ok (web_attempt_err hf)]
        exact ih _ true hrest (Or.inr rfl)
  exact key _ w false hall (Or.inl hne)

/-- **C16** Conversely, success means that some host delivered the image, all hosts before it did not, and the
post-processing of the delivered file succeeded. -/
theorem C16_success_only_by_delivery (c : WikiConf) (env : WebEnv) (cacheDir image : Str) (w w' : World)
    (hne : c.imageArticleHosts ≠ [])
    (hok : downloadImageUsingAllSources c cacheDir image env w = (.ok (), w')) :
    ∃ pre host post path fresh w1 w2, c.imageArticleHosts = pre ++ host :: post ∧
      AllFail c env image pre w w1 ∧ downloadImage c host image env w1 = (.ok (path, fresh), w2) ∧
      postProcessImage c cacheDir path fresh env w2 = (.ok (), w') := by
  unfold downloadImageUsingAllSources at hok
  have key : ∀ hosts w failed, (hosts ≠ [] ∨ failed = true) →
      tryHosts c cacheDir image hosts failed env w = (.ok (), w') →
      ∃ pre host post path fresh w1 w2, hosts = pre ++ host :: post ∧
      AllFail c env image pre w w1 ∧ downloadImage c host image env w1 = (.ok (path, fresh), w2) ∧
      postProcessImage c cacheDir path fresh env w2 = (.ok (), w') := by
    intro hosts
    induction hosts with
    | nil =>
      intro w failed hor h
      have : failed = true := hor.resolve_left (by simp)
      subst this
      cases h
    | cons host hosts ih =>
      intro w failed _ h
      rw [tryHosts] at h
      obtain ⟨r, w1, h1, h2⟩ := web_bind_inv h
      cases r with
      | none =>
        have hf : downloadImage c host image env w = (.err, w1) := by
          unfold Web.attempt at h1
          rcases hd : downloadImage c host image env w with ⟨o, w2⟩
          rw [hd] at h1
          cases o <;> cases h1
          rfl
        obtain ⟨pre, ho, post, path, fresh, w3, w4, e1, e2, e3, e4⟩ := ih w1 true (Or.inr rfl) h2
        exact ⟨host :: pre, ho, post, path, fresh, w3, w4, by rw [e1]; rfl, .cons hf e2, e3, e4⟩
      | some x =>
        obtain ⟨path, fresh⟩ := x
        have hf : downloadImage c host image env w = (.ok (path, fresh), w1) := by
          unfold Web.attempt at h1
          rcases hd : downloadImage c host image env w with ⟨o, w2⟩
          rw [hd] at h1
          cases o <;> cases h1
          rfl
        exact ⟨[], host, hosts, path, fresh, w, w1, rfl, .nil _, hf, h2⟩
  exact key _ w false (Or.inl hne) hok

/-- The requests a host causes: its article about the image, and the file on the image server. -/
def RequestOf (c : WikiConf) (host : Str) : Event → Prop
  | .request method url body => method = b!"GET" ∧ body = [] ∧
      ((∃ title, url = articleUrl host title) ∨ ∃ rest, url = b!"https://" ++ c.imageHost ++ b!"/wikipedia/" ++ rest)
  | .sleep _ => True
  | .command _ _ => False

/-- **C16** Trying a host sends requests to this host and to the image server only. -/
theorem C16_requests_of_one_host (c : WikiConf) (host image : Str) :
    Emits (RequestOf c host) (downloadImage c host image) := by
  unfold downloadImage
  refine .bind (.lift _) fun name => .bind ?_ fun article => .bind (.lift _) fun orig => .bind (.lift _) fun act =>
    .bind_lift fun url hu => ?_
  · unfold downloadArticle readBytes
    refine .bind (.downloadAndCache _ _ _ ⟨rfl, rfl, Or.inl ⟨_, rfl⟩⟩ fun _ => trivial) ?_
    rintro ⟨path, b⟩
    refine .bind (.files _) fun bytes => .bind (.orErr _) ?_
    rintro ⟨t, content⟩
    exact .pure _
  · have hrest : ∃ rest, url = b!"https://" ++ c.imageHost ++ b!"/wikipedia/" ++ rest := by
      unfold imageUrl at hu
      simp only at hu
      cases h0 : index (c.md5hex (underscores act)) 0 with
      | ok d0 =>
        cases h1 : index (c.md5hex (underscores act)) 1 with
        | ok d1 =>
          rw [h0, h1] at hu
          cases hu
          exact ⟨_, by simp only [List.append_assoc]; rfl⟩
        | _ => rw [h0, h1] at hu; cases hu
      | _ => rw [h0] at hu; cases hu
    refine .bind (.downloadAndCache _ _ _ ⟨rfl, rfl, Or.inr hrest⟩ fun _ => trivial) ?_
    rintro ⟨path, fresh⟩
    exact .bind (.whenW _ (.svgToViewbox _ _)) fun _ => .pure _

/-- **C16** (requests) When `host` is the first that delivers, all requests go to the hosts up to `host` and to
the image server: no later host is contacted. -/
theorem C16_no_later_host_contacted (c : WikiConf) (env : WebEnv) (cacheDir image host path : Str)
    (fresh : Bool) (pre post : List Str) (w w1 w2 : World) (hh : c.imageArticleHosts = pre ++ host :: post)
    (hpre : AllFail c env image pre w w1) (hhost : downloadImage c host image env w1 = (.ok (path, fresh), w2)) :
    ∃ new, (downloadImageUsingAllSources c cacheDir image env w).2.events = w.events ++ new ∧
      ∀ x ∈ new, (∃ h ∈ pre ++ [host], RequestOf c h x) ∨ ∃ args dir, x = .command args dir := by
  rw [C16_first_delivering_host_wins c env cacheDir image host path fresh pre post w w1 w2 hh hpre hhost]
  have h1 : ∃ new, w1.events = w.events ++ new ∧ ∀ x ∈ new, ∃ h ∈ pre, RequestOf c h x := by
    clear hhost hh
    induction hpre with
    | nil w => exact ⟨[], by simp, by simp⟩
    | @cons h hs wa wb wc hf _ ih =>
      obtain ⟨n1, e1, p1⟩ := C16_requests_of_one_host c h image env wa
      obtain ⟨n2, e2, p2⟩ := ih
      rw [hf] at e1
      refine ⟨n1 ++ n2, by rw [e2, e1, List.append_assoc], ?_⟩
      intro x hx
      rcases List.mem_append.mp hx with hx | hx
      · exact ⟨h, by simp, p1 x hx⟩
      · obtain ⟨h', hh', hp⟩ := p2 x hx
        exact ⟨h', by simp [hh'], hp⟩
  obtain ⟨n1, e1, p1⟩ := h1
  obtain ⟨n2, e2, p2⟩ := C16_requests_of_one_host c host image env w1
  rw [hhost] at e2
  have hpp : Emits (fun x => ∃ args dir, x = .command args dir) (postProcessImage c cacheDir path fresh) := by
    have hex : ∀ args d out, Emits (fun x => ∃ args dir, x = .command args dir) (execute args d out) := by
      intro args d out e w
      exact ⟨[.command args d], rfl, by simp⟩
    unfold postProcessImage
    refine .bind ?_ ?_
    · unfold convertIfNeeded
      split
      · refine .bind (.of_same fun _ _ => rfl) fun b => ?_
        cases b with
        | true => exact .pure _
        | false => exact .bind (hex _ _ _) fun _ => .pure _
      · exact .pure _
    · rintro ⟨p, f⟩
      exact .whenW _ (hex _ _ _)
  obtain ⟨n3, e3, p3⟩ := hpp env w2
  simp only at e2
  refine ⟨n1 ++ n2 ++ n3, by rw [e3, e2, e1]; simp, ?_⟩
  intro x hx
  simp only [List.mem_append] at hx
  rcases hx with (hx | hx) | hx
  · obtain ⟨h, hh, hp⟩ := p1 x hx
    exact Or.inl ⟨h, by simp [hh], hp⟩
  · exact Or.inl ⟨host, by simp, p2 x hx⟩
  · exact Or.inr (p3 x hx)

/-- Why the list of hosts must not be empty in `C16_success_only_by_delivery`: without any host nothing is
downloaded, but no error is reported. -/
theorem C16_no_host_no_error (c : WikiConf) (env : WebEnv) (cacheDir image : Str) (w : World)
    (h : c.imageArticleHosts = []) : downloadImageUsingAllSources c cacheDir image env w = (.ok (), w) := by
  unfold downloadImageUsingAllSources
  rw [h]; rfl

/-! ## C17: the image path in the HTML -/

theorem validKey_article {env : CacheEnv} (hd : (cleanElems env.cacheDir).getLast? ≠ some b!".tmp") (title : Str) :
    ValidKey env articleFolder (articleFile title) := by
  refine ⟨cache_folders_plain _ (by decide), by decide, ?_, hd⟩
  intro h
  simp only [List.mem_cons, List.not_mem_nil, or_false, articleFile] at h
  rcases h with h | h | h <;> (have := congrArg List.length h; simp at this)

/-- **C17** When the download of an image succeeded, the file exists at the very path that the HTML uses
(relative to the cache directory), also after a conversion to PNG. This holds for all file names without colon
(a colon is mishandled, see the next theorem) and without space (the parser has replaced spaces before). It is
assumed that an external converter that reports success has written its output file. -/
theorem C17_image_exists_at_html_path_partial (c : WikiConf) (env : WebEnv) (pre filename : Str) (w w' : World)
    (hpre : (0x3A : Byte) ∉ pre) (hcolon : (0x3A : Byte) ∉ filename) (hspace : (0x20 : Byte) ∉ filename)
    (hv : ValidKey env.cache imageFolder filename) (hw : WalkOk env.cache) (hr : ∀ k, Digits (env.rnd k))
    (hwf : w.fs.WF) (hne : c.imageArticleHosts ≠ [])
    (hcmd : ∀ args fs, (env.command args fs).ok = true → (env.command args fs).output.isSome = true)
    (hok : downloadImageUsingAllSources c env.cache.cacheDir (pre ++ b!":" ++ filename) env w = (.ok (), w')) :
    (w'.fs.get (pathJoin [env.cache.cacheDir, filenameToImagePath c filename])).isSome = true := by
  obtain ⟨fails, host, post, path, fresh, w1, w2, -, h2, h3, h4⟩ :=
    C16_success_only_by_delivery c env _ _ w w' hne hok
  have hdl : ∀ host, KeepsWF env (downloadArticle c host (b!"File:" ++ filename)) := by
    intro host
    refine .bind (.downloadAndCache (validKey_article hv.dir_ne _) hw hr) ?_
    rintro ⟨p, b⟩
    refine .bind (.readBytes _) fun bytes => .bind (.orErr _) ?_
    rintro ⟨t, content⟩
    exact .pure _
  have hname : afterColon (pre ++ b!":" ++ filename) = .ok filename := split_colon hpre hcolon
  have hname2 : afterColon (b!"File:" ++ filename) = .ok filename := by
    have := split_colon (a := b!"File") (by decide) hcolon
    simpa using this
  have hund := underscores_of_no_space hspace
  -- the article always has the requested title
  have horig : ∀ {host wa wb} {dto : ArticleDto},
      downloadArticle c host (b!"File:" ++ filename) env wa = (.ok dto, wb) → dto.originalTitle = b!"File:" ++ filename := by
    intro host wa wb dto h
    obtain ⟨⟨p, b⟩, w3, -, h⟩ := web_bind_inv h
    obtain ⟨bytes, w4, -, h⟩ := web_bind_inv h
    obtain ⟨⟨t, ct⟩, w5, -, h⟩ := web_bind_inv h
    cases h
    rfl
  -- trying a host keeps the disk well formed
  have hdi : ∀ host, KeepsWF env (downloadImage c host (pre ++ b!":" ++ filename)) := by
    intro host w hwf
    unfold downloadImage
    rw [hname]
    have hlift : ∀ {β} (f : Str → Web β), (Web.lift (.ok filename) >>= f) = f filename := by
      intro β f; funext e w; exact web_bind_ok rfl
    rw [hlift]
    have hk := hdl host w hwf
    rcases hda : downloadArticle c host (b!"File:" ++ filename) env w with ⟨o, w3⟩
    rw [hda] at hk
    cases o with
    | ok dto =>
      rw [web_bind_ok hda]
      rw [horig hda, hname2, hlift]
      refine KeepsWF.bind_lift (e := env) (fun act _ => KeepsWF.bind_lift fun url _ => ?_) w3 hk
      rw [hund]
      refine .bind (.downloadAndCache hv hw hr) ?_
      rintro ⟨p, b⟩
      exact .bind (.whenW _ (.svgToViewbox _ _)) fun _ => .pure _
    | err => rw [web_bind_err hda]; exact hk
    | panic => rw [web_bind_panic hda]; exact hk
    | fatal => rw [web_bind_fatal hda]; exact hk
    | waiting => rw [web_bind_waiting hda]; exact hk
  have hwf1 : w1.fs.WF := by
    clear h3 hok
    induction h2 with
    | nil w => exact hwf
    | @cons h hs wa wb wc hf _ ih =>
      refine ih ?_
      have := hdi h wa hwf
      rw [hf] at this
      exact this
  -- the successful host
  have hstored : path = getFilePathInCache env.cache.cacheDir imageFolder filename ∧
      (w2.fs.get path).isSome = true := by
    unfold downloadImage at h3
    obtain ⟨name, wa, g1, h3⟩ := web_bind_inv h3
    rw [hname] at g1
    cases g1
    obtain ⟨dto, wb, g2, h3⟩ := web_bind_inv h3
    obtain ⟨orig, wc, g3, h3⟩ := web_bind_inv h3
    rw [horig g2, hname2] at g3
    cases g3
    obtain ⟨act, wd, g4, h3⟩ := web_bind_inv h3
    obtain ⟨url, we, g5, h3⟩ := web_bind_inv h3
    obtain ⟨⟨p, f⟩, wf, g6, h3⟩ := web_bind_inv h3
    obtain ⟨u, wg, g7, h3⟩ := web_bind_inv h3
    cases h3
    have hwb : wb.fs.WF := by
      have := hdl host w1 hwf1
      rw [g2] at this
      exact this
    have hwe : we = wb := by
      have e1 : we = wd := (congrArg Prod.snd g5).symm
      have e2 : wd = wb := (congrArg Prod.snd g4).symm
      rw [e1, e2]
    subst hwe
    rw [hund] at g6
    obtain ⟨k1, k2, -⟩ := downloadAndCache_exists hv hw hr hwb g6
    refine ⟨k1, ?_⟩
    unfold whenW at g7
    split at g7
    · unfold svgToViewbox at g7
      split at g7
      · split at g7
        · split at g7
          · cases g7; exact k2
          · cases g7; simp [get_put_self]
        · cases g7; exact k2
      · cases g7; exact k2
    · cases g7; exact k2
  obtain ⟨hp, hex⟩ := hstored
  -- the post-processing
  have hfold : Plain imageFolder := cache_folders_plain b!"images" (by decide)
  have hexec : ∀ {args d out p} {wx wy : World}, execute args d out env wx = (.ok (), wy) →
      ((wx.fs.get p).isSome = true → (wy.fs.get p).isSome = true) ∧ (wy.fs.get out).isSome = true := by
    intro args d out p wx wy h
    unfold execute at h
    simp only [Prod.mk.injEq] at h
    obtain ⟨h, h'⟩ := h
    have hokc : (env.command args wx.fs).ok = true := by
      cases hc : (env.command args wx.fs).ok with
      | true => rfl
      | false => rw [hc] at h; cases h
    have hout := hcmd args wx.fs hokc
    obtain ⟨ct, hct⟩ := Option.isSome_iff_exists.mp hout
    rw [hct] at h'
    subst h'
    refine ⟨fun hp => ?_, by simp [get_put_self]⟩
    show ((wx.fs.put out _).get p).isSome = true
    by_cases hpo : p = out
    · subst hpo; simp [get_put_self]
    · rw [get_put_ne hpo]; exact hp
  obtain ⟨⟨p2, f2⟩, w3, h5, h6⟩ := web_bind_inv h4
  have hw' : (w3.fs.get p2).isSome = true → (w'.fs.get p2).isSome = true := by
    intro h
    simp only [whenW] at h6
    split at h6
    · exact (hexec h6).1 h
    · cases h6; exact h
  obtain ⟨hpng1, hpng2, hpng3⟩ := png_entry (cacheDir := env.cache.cacheDir) (folder := imageFolder) hfold hv.name_ok
  have hext : extLower path = extLower (getRelativeFilePathInCache imageFolder filename) := by
    have hpl := plain_sanitize hv.name_ok
    obtain ⟨l1, e1, -⟩ : ∃ x, path = x ++ b!"/" ++ sanitizeFilename filename ∧ True := by
      rw [hp]
      unfold getFilePathInCache
      rw [pathJoin_three hfold hpl]
      refine ⟨renderPath (isAbs env.cache.cacheDir) (cleanElems env.cache.cacheDir ++ [imageFolder]), ?_, trivial⟩
      have : cleanElems env.cache.cacheDir ++ [imageFolder, sanitizeFilename filename] =
        (cleanElems env.cache.cacheDir ++ [imageFolder]) ++ [sanitizeFilename filename] := by simp
      rw [this, renderPath_append (by simp)]
    have e2 : getRelativeFilePathInCache imageFolder filename = imageFolder ++ b!"/" ++ sanitizeFilename filename := by
      unfold getRelativeFilePathInCache
      rw [pathJoin_three hfold hpl]; rfl
    rw [e1, e2, extLower_sep, extLower_sep]
  have hrt : ∀ name, name ∉ [b!"", b!".", b!".."] →
      pathJoin [env.cache.cacheDir, getRelativeFilePathInCache imageFolder name] =
        getFilePathInCache env.cache.cacheDir imageFolder name :=
    fun name hn => (C12_relative_path_round_trip env.cache.cacheDir imageFolder name hfold hn).2.1
  -- the path after the conversion is the HTML path
  have hconv : p2 = pathJoin [env.cache.cacheDir, filenameToImagePath c filename] ∧ (w3.fs.get p2).isSome = true := by
    have hpn : ∀ tmpl, tmpl ≠ [] → convertIfNeeded path fresh tmpl env w2 = (.ok (p2, f2), w3) →
        p2 = pngPath path ∧ (w3.fs.get p2).isSome = true := by
      intro tmpl ht h
      unfold convertIfNeeded at h
      rw [if_pos ht] at h
      obtain ⟨b, wx, g1, h⟩ := web_bind_inv h
      have g1' : Outcome.ok (w2.fs.get (pngPath path)).isSome = Outcome.ok b ∧ w2 = wx := by
        have := g1
        unfold pathExists at this
        exact Prod.mk.inj this
      obtain ⟨g1a, rfl⟩ := g1'
      cases b with
      | true =>
        cases h
        exact ⟨rfl, by injection g1a⟩
      | false =>
        obtain ⟨u, wy, g2, h⟩ := web_bind_inv (m := convertToPng path (pngPath path) tmpl)
          (f := fun _ => pure (pngPath path, true)) h
        cases h
        exact ⟨rfl, (hexec (p := []) g2).2⟩
    unfold filenameToImagePath
    unfold conversionFor at h5
    rw [hext] at h5
    simp only
    split
    · rename_i hc
      rw [if_pos hc] at h5
      obtain ⟨a1, a2⟩ := hpn _ hc.1 h5
      exact ⟨by rw [a1, hp, hpng1, hpng2, hrt _ hpng3], a2⟩
    · rename_i hc
      rw [if_neg hc] at h5
      split
      · rename_i hc
        rw [if_pos hc] at h5
        obtain ⟨a1, a2⟩ := hpn _ hc.1 h5
        exact ⟨by rw [a1, hp, hpng1, hpng2, hrt _ hpng3], a2⟩
      · rename_i hc
        rw [if_neg hc] at h5
        split
        · rename_i hc
          rw [if_pos hc] at h5
          obtain ⟨a1, a2⟩ := hpn _ hc.1 h5
          exact ⟨by rw [a1, hp, hpng1, hpng2, hrt _ hpng3], a2⟩
        · rename_i hc
          rw [if_neg hc] at h5
          unfold convertIfNeeded at h5
          rw [if_neg (by simp)] at h5
          cases h5
          exact ⟨by rw [hp, hrt _ hv.name_ok], hex⟩
  rw [← hconv.1]
  exact hw' hconv.2

/-- A concrete configuration: JSON texts are `title|content`. -/
def demoConf (hosts : List Str) : WikiConf where
  wikiInstance := b!"de"
  host := b!"wikipedia.org"
  imageArticleHosts := hosts
  imageHost := b!"upload.org"
  mathApi := b!"https://math.org"
  mathConverter := .none
  svgSizeToViewbox := false
  commandSvgToPng := []
  commandPdfToPng := []
  commandWebpToPng := []
  commandMathSvgToPng := []
  commandImageProcessing := []
  decodeArticle s := some ((splitN b!"|" 2 s).headD [], ((splitN b!"|" 2 s).tail).headD [])
  decodeTemplate s := some s
  md5hex _ := b!"ab"
  sha1hex _ := b!"cd"
  svgAbsolute _ := none

def demoWebBig (conv : CommandResult) : WebEnv :=
  ⟨⟨b!"/c", 100000, 60, .lru, id⟩, noFaults, fun _ => 100, fun _ => b!"123", fun _ _ => conv⟩

/-- A run of C16 and C17: the first host has no such image, the second one delivers, the third is not asked. -/
example :
    let c := demoConf [b!"h1", b!"h2", b!"h3"]
    let r := downloadImageUsingAllSources c b!"/c" b!"File:a.jpg" (demoWebBig ⟨true, none⟩)
      ⟨[], 0, [], [answer 404 [] [] [], answer 200 [] [] b!"File:b.jpg|", answer 200 [] [] b!"picture"]⟩
    r.1 = .ok () ∧ requestedUrls r.2.events = [articleUrl b!"h1" b!"File:a.jpg", articleUrl b!"h2" b!"File:a.jpg",
      b!"https://upload.org/wikipedia//a/ab/b.jpg"] ∧
    r.2.fs.get (pathJoin [b!"/c", filenameToImagePath c b!"a.jpg"]) = some ⟨b!"picture", 100⟩ := by
  decide +kernel

/-- A run with conversion: the HTML uses the PNG file. -/
example :
    let c := { demoConf [b!"h1"] with commandSvgToPng := b!"conv {INPUT} {OUTPUT}" }
    let r := downloadImageUsingAllSources c b!"/c" b!"File:a.SVG" (demoWebBig ⟨true, some b!"pixels"⟩)
      ⟨[], 0, [], [answer 200 [] [] b!"File:a.SVG|", answer 200 [] [] b!"<svg>"]⟩
    r.1 = .ok () ∧ filenameToImagePath c b!"a.SVG" = b!"images/a.SVG.png" ∧
    (r.2.fs.get b!"/c/images/a.SVG.png").isSome ∧
    r.2.events.getLast? = some (.command [b!"conv", b!"/c/images/a.SVG", b!"/c/images/a.SVG.png"] b!".") := by
  decide +kernel

/-- **C17** fails for file names with a colon: the download succeeds, but nothing is stored at the path that
the HTML uses (only the text up to the second colon is used). -/
theorem C17_fails_for_colon :
    let c := demoConf [b!"h1"]
    let r := downloadImageUsingAllSources c b!"/c" b!"File:a:b.jpg" (demoWebBig ⟨true, none⟩)
      ⟨[], 0, [], [answer 200 [] [] b!"File:a|", answer 200 [] [] b!"picture"]⟩
    r.1 = .ok () ∧ r.2.fs.get (pathJoin [b!"/c", filenameToImagePath c b!"a:b.jpg"]) = none := by
  decide +kernel

/-! ## C18: articles of different wikis -/

/-- Reading an existing file. -/
theorem readBytes_ok {env : WebEnv} {w : World} {path : Str} {f : File} (hff : env.faults = noFaults)
    (hg : w.fs.get path = some f) :
    readBytes path env w = (.ok f.content, { w with ops := w.ops + 1 }) := by
  unfold readBytes Web.files FsM.readFile FsM.prim
  rw [hff]
  simp [noFaults, hg, Web.ofRes]

/-- A file that was not in the cache can only come from a successful request. -/
theorem downloadAndCache_requested {env : WebEnv} {url folder name : Str} {w w1 : World} {x : Str × Bool}
    (hv : ValidKey env.cache folder name) (hff : env.faults = noFaults) (hmax : 0 ≤ env.cache.maxAge)
    (hnu : NotUsable env folder name w) (h : downloadAndCache url folder name env w = (.ok x, w1)) :
    ∃ resp, (doRequest b!"GET" url [] env w).1 = .ok resp := by
  obtain ⟨h1, -, -⟩ := lookup_not_usable env folder name w hv hmax hnu
  rw [downloadAndCache_miss env url folder name w hff ⟨_, h1⟩] at h
  obtain ⟨body, w2, h2, -⟩ := web_bind_inv (m := download url) h
  obtain ⟨resp, w3, h3, -⟩ := web_bind_inv (m := doRequest b!"GET" url []) h2
  exact ⟨resp, congrArg Prod.fst h3⟩

/-- **C18** holds only if the article is not in the cache: then the text is what the asked host sent in answer
to the request for this title. (Missing: the case of an article in the cache, for which the claim is false, see
`C18_article_of_other_wiki`.) -/
theorem C18_article_from_asked_host_partial (c : WikiConf) (env : WebEnv) (host title : Str) (w w' : World)
    (dto : ArticleDto) (hd : (cleanElems env.cache.cacheDir).getLast? ≠ some b!".tmp") (hff : env.faults = noFaults)
    (hw : WalkOk env.cache) (hr : ∀ k, Digits (env.rnd k)) (hwf : w.fs.WF) (hmax : 0 ≤ env.cache.maxAge)
    (hnu : NotUsable env articleFolder (articleFile title) w)
    (hok : downloadArticle c host title env w = (.ok dto, w')) :
    ∃ resp, (doRequest b!"GET" (articleUrl host title) [] env w).1 = .ok resp ∧
      w'.events = (doRequest b!"GET" (articleUrl host title) [] env w).2.events ∧
      c.decodeArticle resp.body.bytes = some (dto.title, dto.content) ∧ dto.originalTitle = title := by
  have hv := validKey_article (env := env.cache) hd title
  unfold downloadArticle at hok
  obtain ⟨⟨p, fresh⟩, w1, h1, h2⟩ := web_bind_inv hok
  obtain ⟨bytes, w2, h3, h4⟩ := web_bind_inv h2
  obtain ⟨⟨t, content⟩, w3, h5, h6⟩ := web_bind_inv h4
  obtain ⟨resp, hresp⟩ := downloadAndCache_requested hv hff hmax hnu h1
  have h1a : (downloadAndCache (articleUrl host title) articleFolder (articleFile title) env w).1 = .ok (p, fresh) := by
    rw [h1]
  obtain ⟨-, -, -, k, hk⟩ := C13_success_stores_body env _ _ _ w hv hff hw hr hwf hmax hnu resp hresp p fresh h1a
  have hev := C13_miss_requests_once env (articleUrl host title) articleFolder (articleFile title) w hv hff hmax hnu
  rw [h1] at hk hev
  rw [readBytes_ok hff hk] at h3
  cases h3
  cases hdec : c.decodeArticle resp.body.bytes with
  | none => simp only [hdec, orErr] at h5; cases h5
  | some x =>
    simp only [hdec, orErr] at h5
    cases h5
    cases h6
    exact ⟨resp, hresp, hev.1, hdec, rfl⟩

/-- **C18** fails: after a download from `host1`, the article of the same title from `host2` is never requested;
the text from `host1` is used (until the cache entry is too old). -/
theorem C18_article_of_other_wiki (c : WikiConf) (env : WebEnv) (host1 host2 title : Str) (w w' : World)
    (dto : ArticleDto) (hd : (cleanElems env.cache.cacheDir).getLast? ≠ some b!".tmp") (hff : env.faults = noFaults)
    (hw : WalkOk env.cache) (hr : ∀ k, Digits (env.rnd k)) (hwf : w.fs.WF) (hmax : 0 ≤ env.cache.maxAge)
    (hnu : NotUsable env articleFolder (articleFile title) w)
    (hclock : ∀ i j, env.clock i - env.clock j < (env.cache.maxAge + 1) * 60000000000)
    (hok : downloadArticle c host1 title env w = (.ok dto, w')) :
    (downloadArticle c host2 title env w').1 = .ok dto ∧ (downloadArticle c host2 title env w').2.events = w'.events := by
  have hv := validKey_article (env := env.cache) hd title
  obtain ⟨resp, hresp, -, hdec, horig⟩ :=
    C18_article_from_asked_host_partial c env host1 title w w' dto hd hff hw hr hwf hmax hnu hok
  unfold downloadArticle at hok
  obtain ⟨⟨p, fresh⟩, w1, h1, h2⟩ := web_bind_inv hok
  obtain ⟨bytes, w2, h3, h4⟩ := web_bind_inv h2
  obtain ⟨⟨t, content⟩, w3, h5, h6⟩ := web_bind_inv h4
  have h1a : (downloadAndCache (articleUrl host1 title) articleFolder (articleFile title) env w).1 = .ok (p, fresh) := by
    rw [h1]
  obtain ⟨-, hp, -, k, hk⟩ := C13_success_stores_body env _ _ _ w hv hff hw hr hwf hmax hnu resp hresp p fresh h1a
  rw [h1] at hk
  simp only at hk
  rw [readBytes_ok hff hk] at h3
  cases h3
  simp only [hdec, orErr] at h5
  obtain ⟨h5, rfl⟩ := Prod.mk.inj h5
  obtain ⟨-, rfl⟩ := Prod.mk.inj h6
  subst hp
  obtain ⟨a1, a2, -, ⟨t, a4⟩, -⟩ := C13_hit env (articleUrl host2 title) articleFolder (articleFile title)
    { w1 with ops := w1.ops + 1 } hv hff _ hmax hk (hclock _ _)
  rcases hrun : downloadAndCache (articleUrl host2 title) articleFolder (articleFile title) env
    { w1 with ops := w1.ops + 1 } with ⟨o, w4⟩
  rw [hrun] at a1 a2 a4
  simp only at a1 a2 a4
  subst a1
  unfold downloadArticle
  rw [web_bind_ok hrun]
  simp only
  rw [web_bind_ok (readBytes_ok hff a4), hdec]
  refine ⟨?_, ?_⟩
  · show Outcome.ok _ = _
    rw [← horig]
  · exact a2

/-- The hypotheses are met, with different texts in the two wikis: the German book gets the English text. -/
example :
    let w : World := ⟨[], 0, [], [answer 200 [] [] b!"Berlin|English text", answer 200 [] [] b!"Berlin|deutscher Text"]⟩
    let r := downloadArticle (demoConf []) b!"en.wikipedia.org" b!"Berlin" (demoWebBig ⟨true, none⟩) w
    let r' := downloadArticle (demoConf []) b!"de.wikipedia.org" b!"Berlin" (demoWebBig ⟨true, none⟩) r.2
    r'.1 = .ok ⟨b!"Berlin", b!"English text", b!"Berlin"⟩ ∧
    requestedUrls r'.2.events = [articleUrl b!"en.wikipedia.org" b!"Berlin"] := by
  decide +kernel

/-! ## C44: escaped paths -/

theorem urlDecode_queryEscape_append {s : Str} (hs : (0x20 : Byte) ∉ s) (t : Str) :
    urlDecode false (queryEscape s ++ t) = (urlDecode false t).map (s ++ ·) := by
  induction s with
  | nil =>
    show urlDecode false t = _
    cases urlDecode false t <;> rfl
  | cons c s ih =>
    have hq : queryEscape (c :: s) =
        (if unreserved c then [c] else if c = 0x20 then [0x2B] else percentByte c) ++ queryEscape s := rfl
    have hc : c ≠ 0x20 := fun h => hs (by simp [h])
    rw [hq, List.append_assoc, if_neg hc]
    have ih := ih fun h => hs (by simp [h])
    split
    · rename_i h
      obtain ⟨h1, h2⟩ := unreserved_ne h
      rw [List.singleton_append, urlDecode_cons false h1, ih]
      cases urlDecode false t <;> simp
    · rw [urlDecode_percentByte, ih]
      cases urlDecode false t <;> rfl

theorem mem_join_of_mem {sep : Str} {l : List Str} {e : Str} {c : Byte} (he : e ∈ l) (hc : c ∈ e) :
    c ∈ join sep l := by
  induction l with
  | nil => cases he
  | cons a l ih =>
    by_cases hn : l = []
    · subst hn
      have : e = a := by simpa using he
      subst this
      simpa [join] using hc
    · rw [join_cons_of_ne_nil hn]
      rcases List.mem_cons.mp he with rfl | he
      · simp [hc]
      · simp [ih he]

/-- **C44** for paths without space: percent-decoding the path in the HTML yields the path of the file.
(Missing: paths with spaces, for which the claim is false, see `C44_fails_for_space`.) -/
theorem C44_decode_escaped_path_partial (path : Str) (h : (0x20 : Byte) ∉ path) :
    urlDecode false (escapePathComponents path) = some path := by
  have key : ∀ l : List Str, (∀ e ∈ l, (0x20 : Byte) ∉ e) →
      urlDecode false (join b!"/" (l.map queryEscape)) = some (join b!"/" l) := by
    intro l
    induction l with
    | nil => intro _; rfl
    | cons e l ih =>
      intro hl
      have he := hl e (by simp)
      have ih := ih fun x hx => hl x (by simp [hx])
      by_cases hn : l = []
      · subst hn
        have := urlDecode_queryEscape_append he []
        rw [List.append_nil] at this
        simpa [join, urlDecode] using this
      · rw [List.map_cons, join_cons_of_ne_nil (by simpa using hn), join_cons_of_ne_nil hn, List.append_assoc,
          urlDecode_queryEscape_append he, List.singleton_append, urlDecode_cons false (by decide), ih]
        simp
  have hsp : ∀ e ∈ split path b!"/", (0x20 : Byte) ∉ e := by
    intro e he hx
    apply h
    have := join_split_self path (sep := b!"/") (by simp)
    rw [← this]
    exact mem_join_of_mem he hx
  have := key _ hsp
  rwa [join_split_self path (by simp)] at this

/-- **C44** fails for spaces: they become `+`, which is a plus sign when the path is decoded. -/
theorem C44_fails_for_space : urlDecode false (escapePathComponents b!"images/a b.jpg") = some b!"images/a+b.jpg" := by
  decide +kernel

example : escapePathComponents b!"images/ä%2F+.jpg" = b!"images/%C3%A4%252F%2B.jpg" := by decide

theorem relativePath_has_no_space (filename : Str) (hn : filename ∉ [b!"", b!".", b!".."])
    (h : (0x20 : Byte) ∉ filename) : (0x20 : Byte) ∉ getRelativeFilePathInCache imageFolder filename := by
  have : getRelativeFilePathInCache imageFolder filename = imageFolder ++ b!"/" ++ sanitizeFilename filename := by
    unfold getRelativeFilePathInCache
    have hf : Plain imageFolder := cache_folders_plain b!"images" (by decide)
    rw [pathJoin_three hf (plain_sanitize hn)]; rfl
  rw [this]
  intro hm
  simp only [List.mem_append] at hm
  rcases hm with (hm | hm) | hm
  · exact absurd hm (by decide)
  · exact absurd hm (by decide)
  · rw [sanitize_eq_flatMap, List.mem_flatMap] at hm
    obtain ⟨a, ha, hb⟩ := hm
    have : ∀ a : Byte, a ≠ 0x20 → (0x20 : Byte) ∉ encodeByte a := by
      intro a ha
      unfold encodeByte
      repeat' split
      all_goals first
        | decide
        | (intro hm; exact ha (List.mem_singleton.mp hm).symm)
    exact this a (fun e => h (e ▸ ha)) hb

/-- The paths the generator escapes contain no space when the image name contains none, in particular for image
names from the parser (which replaces spaces, C58). -/
theorem C44_image_path_has_no_space (c : WikiConf) (filename : Str) (hn : filename ∉ [b!"", b!".", b!".."])
    (h : (0x20 : Byte) ∉ filename) : (0x20 : Byte) ∉ filenameToImagePath c filename := by
  have hbase := relativePath_has_no_space filename hn h
  have hpng : (0x20 : Byte) ∉ pngPath (getRelativeFilePathInCache imageFolder filename) := by
    unfold pngPath
    intro hm
    rcases List.mem_append.mp hm with hm | hm
    · exact hbase hm
    · exact absurd hm (by decide)
  unfold filenameToImagePath
  simp only
  split
  · exact hpng
  · split
    · exact hpng
    · split
      · exact hpng
      · exact hbase

end Verif.Props
