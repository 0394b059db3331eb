import Verif.Lemmas.Images
import Verif.Lemmas.ImageFiles
import Verif.Model.ArticleText
import Verif.Props.Tokens
import Verif.Props.Expand
import Verif.Props.EvaluateTemplates

/-! # The images of an article: C58 -/

namespace Verif.Props
open Verif.Go Verif.Model Verif.Spec Verif.Lemmas

/-- **C58** (parser): whatever the wikitext, the templates and the configuration are, each image that the book shows is one of
the images that are downloaded, and its file name has no spaces. -/
theorem C58_shown_images_are_requested (env : ParserEnv) (hu : CreatesNoSeparators env.upperFirst) (templates : TemplateEnv)
    (iterate : Nat → List (Str × Str) → List (Str × Str)) (fuel : Nat) (content text : Str) (s : TokState)
    (h : tokenizeArticle env templates iterate fuel content = some (.ok (text, s))) : PicturesRequested s := by
  have key : ∀ c, tokenizeContent env fuel c TokState.initial = some (.ok (text, s)) → PicturesRequested s := by
    intro c hc
    refine registers_tokenizeContent env hu fuel c _ _ _ hc ?_
    intro key token filename hm
    cases hm
  unfold tokenizeArticle at h
  split at h
  · split at h
    · split at h
      · exact key _ h
      all_goals cases h
    all_goals cases h
  all_goals cases h

theorem downloadImages_kept {c : WikiConf} {env : WebEnv} (hs : env.cache.strategy = .none) (hw : WalkOk env.cache)
    (hr : ∀ k, Digits (env.rnd k)) (hd : (cleanElems env.cache.cacheDir).getLast? ≠ some b!".tmp")
    (hne : c.imageArticleHosts ≠ []) {other : Str} (ho : other ∉ [b!"", b!".", b!".."]) (images : List Str)
    (hn : ∀ image ∈ images, ∀ name, NamedBy image name → name ∉ [b!"", b!".", b!".."]) {w w' : World} (hwf : w.fs.WF)
    (h : downloadImages c env.cache.cacheDir images env w = (.ok (), w')) :
    w'.fs.WF ∧ ((w.fs.get (getFilePathInCache env.cache.cacheDir imageFolder other)).isSome = true →
      (w'.fs.get (getFilePathInCache env.cache.cacheDir imageFolder other)).isSome = true) := by
  induction images generalizing w with
  | nil =>
    cases h
    exact ⟨hwf, id⟩
  | cons image images ih =>
    obtain ⟨_, w1, h1, h2⟩ := web_bind_inv h
    obtain ⟨name, hi⟩ : ∃ name, afterColon image = .ok name := by
      obtain ⟨_, host, _, path, fresh, w2, w3, -, -, h3, -⟩ := C16_success_only_by_delivery c env _ _ w w1 hne h1
      obtain ⟨name, wa, g1, -⟩ := web_bind_inv h3
      refine ⟨name, ?_⟩
      unfold Web.lift Web.ofRes at g1
      cases ha : afterColon image with
      | ok x => rw [ha] at g1; cases g1; rfl
      | err => rw [ha] at g1; cases g1
      | panic => rw [ha] at g1; cases g1
      | fatal => rw [ha] at g1; cases g1
    obtain ⟨k1, k2⟩ := downloadImageUsingAllSources_keeps hs hw hr hd ho hi
      (hn image (by simp) name (afterColon_named hi)) hwf hne h1
    obtain ⟨k3, k4⟩ := ih (fun i hi => hn i (by simp [hi])) k1 h2
    exact ⟨k3, fun hp => k4 (k2 hp)⟩

/-- The path of an image in the HTML is the path of an entry of the cache. -/
theorem imagePath_entry (c : WikiConf) (cacheDir filename : Str) (hn : filename ∉ [b!"", b!".", b!".."]) :
    ∃ name, name ∉ [b!"", b!".", b!".."] ∧
      pathJoin [cacheDir, filenameToImagePath c filename] = getFilePathInCache cacheDir imageFolder name := by
  have hfold : Plain imageFolder := cache_folders_plain b!"images" (by decide)
  obtain ⟨-, h2, h3⟩ := png_entry (cacheDir := cacheDir) (folder := imageFolder) hfold hn
  have hrt := fun name hn => (C12_relative_path_round_trip cacheDir imageFolder name hfold hn).2.1
  unfold filenameToImagePath
  dsimp only
  rw [h2]
  split
  · exact ⟨_, h3, hrt _ h3⟩
  split
  · exact ⟨_, h3, hrt _ h3⟩
  split
  · exact ⟨_, h3, hrt _ h3⟩
  · exact ⟨_, hn, hrt _ hn⟩

/-- **C58**: After the images of an article have been downloaded successfully, each image that the article shows exists: the
address in the HTML, decoded, is the path of a file in the cache directory (the converted file if images are converted). What is
missing: names with a colon (`C17_fails_for_colon`) and caches with an eviction strategy
(`C58_image_is_evicted_by_a_later_image`). It is assumed that a converter that reports success has written its output file, and
that no image is called `.` or `..`. -/
theorem C58_shown_images_exist_partial (env : ParserEnv) (hu : CreatesNoSeparators env.upperFirst) (templates : TemplateEnv)
    (iterate : Nat → List (Str × Str) → List (Str × Str)) (fuel : Nat) (content text : Str) (s : TokState)
    (html : HtmlEnv) (web : WebEnv) (w w' : World)
    (h : tokenizeArticle env templates iterate fuel content = some (.ok (text, s)))
    (hdl : downloadImages html.conf web.cache.cacheDir s.images web w = (.ok (), w'))
    (hs : web.cache.strategy = .none) (hw : WalkOk web.cache) (hr : ∀ k, Digits (web.rnd k))
    (hd : (cleanElems web.cache.cacheDir).getLast? ≠ some b!".tmp") (hwf : w.fs.WF)
    (hne : html.conf.imageArticleHosts ≠ [])
    (hcmd : ∀ args fs, (web.command args fs).ok = true → (web.command args fs).output.isSome = true)
    (hn : ∀ image ∈ s.images, ∀ name, NamedBy image name → name ∉ [b!"", b!".", b!".."])
    (key : Str) (token : Token) (filename : Str) (hk : (key, token) ∈ s.tokenMap) (hp : pictureFile token = some filename)
    (hcolon : (0x3A : Byte) ∉ filename) :
    ∃ path, urlDecode false (imageSource html filename) = some path ∧
      (w'.fs.get (pathJoin [web.cache.cacheDir, path])).isSome = true := by
  obtain ⟨⟨pre, hpre, hm⟩, hspace⟩ := C58_shown_images_are_requested env hu templates iterate fuel content text s h
    key token filename hk hp
  have hf : filename ∉ [b!"", b!".", b!".."] := hn _ hm filename ⟨hcolon, pre, hpre, .inl rfl⟩
  refine ⟨filenameToImagePath html.conf filename,
    C44_decode_escaped_path_partial _ (C44_image_path_has_no_space html.conf filename hf hspace), ?_⟩
  obtain ⟨name, hname, hpath⟩ := imagePath_entry html.conf web.cache.cacheDir filename hf
  rw [hpath]
  -- the position of the image
  have key : ∀ images : List Str, (∀ image ∈ images, ∀ name, NamedBy image name → name ∉ [b!"", b!".", b!".."]) →
      pre ++ b!":" ++ filename ∈ images → ∀ w, w.fs.WF → downloadImages html.conf web.cache.cacheDir images web w = (.ok (), w') →
      (w'.fs.get (getFilePathInCache web.cache.cacheDir imageFolder name)).isSome = true := by
    intro images
    induction images with
    | nil => intro _ hm; cases hm
    | cons image images ih =>
      intro hn hm w hwf h
      obtain ⟨u, w1, h1, h2⟩ := web_bind_inv h
      have hn' := fun i (hi : i ∈ images) => hn i (List.mem_cons_of_mem _ hi)
      have hwf1 : w1.fs.WF := by
        have := (downloadImages_kept hs hw hr hd hne hname [image] (fun i hi => hn i (by simp at hi; simp [hi])) hwf
          (w' := w1) (by
            show (downloadImageUsingAllSources html.conf web.cache.cacheDir image >>= fun _ => _) web w = _
            rw [web_bind_ok h1]; rfl)).1
        exact this
      rcases List.mem_cons.mp hm with rfl | hm
      · have := C17_image_exists_at_html_path_partial html.conf web pre filename w w1 hpre hcolon hspace
          (validKey_image hd hf) hw hr hwf hne hcmd h1
        rw [hpath] at this
        exact (downloadImages_kept hs hw hr hd hne hname images hn' hwf1 h2).2 this
      · exact ih hn' hm w1 hwf1 h2
  exact key s.images hn hm w hwf hdl

/-- A cache without eviction, a server and a program that converts pictures. -/
def pictureWeb (maxSize : Int) (strategy : Strategy) : WebEnv :=
  ⟨⟨b!"/c", maxSize, 60, strategy, id⟩, noFaults, fun _ => 100, fun _ => b!"123", fun _ _ => ⟨true, some b!"pixels"⟩⟩

/-- **C58** fails with an eviction strategy: while the images of one article are being downloaded, the second one evicts the
first one, although both of them and their descriptions (60 bytes) are smaller than the limit. No error is reported, and the
HTML shows an image that does not exist. -/
theorem C58_image_is_evicted_by_a_later_image :
    let r := downloadImages (demoConf [b!"h1"]) b!"/c" [b!"File:a.jpg", b!"File:b.jpg"] (pictureWeb 65 .lru)
      ⟨[], 0, [], [answer 200 [] [] b!"File:a.jpg|", answer 200 [] [] b!"picture of a church", answer 200 [] [] b!"File:b.jpg|",
        answer 200 [] [] b!"picture of a bridge"]⟩
    r.1 = .ok () ∧ r.2.fs.get b!"/c/images/a.jpg" = none ∧ (r.2.fs.get b!"/c/images/b.jpg").isSome = true := by
  decide +kernel

/-- **C58** fails for names with a colon, too: another name is requested, and the image is not shown at all. -/
theorem C58_image_with_colon_is_lost :
    (match tokenizeArticle tokenizerEnv exampleTemplates (fun _ l => l) 100 b!"A [[File:Church: tower.jpg|thumb]] b" with
      | some (.ok (text, s)) => some (text, s.images)
      | _ => none) = some (b!"A  b", [b!"Church:tower.jpg"]) := by
  decide +kernel

/-- An article with an image within the caption of an image. -/
def pictureArticle : Str := b!"A church [[File:St. Mary.svg|thumb|The [[File:x.png|20px]] church]] in a city."

/-- The images of the article, the files that are shown and the answers of the server. -/
def pictureRun : Option (List Str × List Str × World) :=
  match tokenizeArticle tokenizerEnv exampleTemplates (fun _ l => l) 100 pictureArticle with
  | some (.ok (_, s)) =>
    let r := downloadImages { demoConf [b!"h1"] with commandSvgToPng := b!"conv {INPUT} {OUTPUT}" } b!"/c" s.images
      (pictureWeb 65 .none) ⟨[], 0, [], [answer 200 [] [] b!"File:x.png|", answer 200 [] [] b!"picture",
        answer 200 [] [] b!"File:St._Mary.svg|", answer 200 [] [] b!"<svg>"]⟩
    if r.1 = .ok () then some (s.images, s.tokenMap.filterMap fun e => pictureFile e.2, r.2) else none
  | _ => none

-- the hypotheses of the theorem are met, and both images exist where the HTML expects them
example : CreatesNoSeparators tokenizerEnv.upperFirst ∧ (pictureWeb 65 .none).cache.strategy = .none ∧
    WalkOk (pictureWeb 65 .none).cache ∧ (∀ k, Digits ((pictureWeb 65 .none).rnd k)) ∧
    (pictureRun.map fun r => (r.1, r.2.1, r.2.2.fs.map Prod.fst)) = some ([b!"File:x.png", b!"File:St._Mary.svg"],
      [b!"St._Mary.svg", b!"x.png"],
      [b!"/c/images/St._Mary.svg.png", b!"/c/images/St._Mary.svg", b!"/c/articles/File%3ASt._Mary.svg.json", b!"/c/images/x.png",
        b!"/c/articles/File%3Ax.png.json"]) :=
  ⟨fun _ _ _ h => h, rfl, fun l => List.Perm.refl l, fun _ => (by unfold Digits; decide : Digits b!"123"), by decide +kernel⟩

end Verif.Props
