import Verif.Spec.ImageFile
import Verif.Props.MathPictures
import Verif.Props.ImageRequests

/-! # C73: the file of an image -/

namespace Verif.Props
open Verif.Go Verif.Model Verif.Spec Verif.Lemmas FSl
open scoped List

/-- The file extension is `.svg` exactly if the path ends in this way. -/
theorem ext_svg (path : Str) : ext path = b!".svg" ↔ b!".svg" <:+ path := by
  have go : ∀ (r acc : Str), ext.go acc r <:+ r.reverse ++ acc := by
    intro r
    induction r with
    | nil => intro acc; rw [ext.go]; exact List.nil_suffix
    | cons c r ih =>
      intro acc
      rw [ext.go]
      split
      · exact List.nil_suffix
      · split
        · rename_i h
          subst h
          rw [List.reverse_cons, List.append_assoc]
          exact List.suffix_append _ _
        · have := ih (c :: acc)
          rwa [List.reverse_cons, List.append_assoc]
  constructor
  · intro h
    have := go path.reverse []
    rw [List.reverse_reverse, List.append_nil] at this
    rw [← h]
    exact this
  · rintro ⟨a, rfl⟩
    unfold ext
    rw [List.reverse_append]
    rfl

/-- What a successful download leaves in the cache, and whether it has been asked for. -/
theorem delivered_fresh {web : WebEnv} {url folder name p : Str} {fresh : Bool} {w w' : World}
    (hv : ValidKey web.cache folder name) (hw : WalkOk web.cache) (hr : ∀ k, Digits (web.rnd k)) (hwf : w.fs.WF)
    (h : downloadAndCache url folder name web w = (.ok (p, fresh), w')) :
    ∃ f, w'.fs.get p = some f ∧
      ((fresh = false ∧ ∃ g, w.fs.get p = some g ∧ f.content = g.content) ∨
       (fresh = true ∧ ∃ answer, Answered web b!"GET" url [] w.script w'.script answer ∧ answer.body.eof = true ∧ f.content = answer.body.bytes)) := by
  obtain ⟨e1, e2, e3⟩ := downloadAndCache_exists hv hw hr hwf h
  obtain ⟨⟨q, cached⟩, w1, h1, h2⟩ := web_bind_inv h
  obtain ⟨g1, g2, g3⟩ := files_inv h1
  obtain ⟨l1, -, l3, l4⟩ := lookup_facts hv hwf (lookup_state (ff := web.faults) (now := web.clock w.ops) hv w.ops)
  rw [← g2] at l1 l3 l4
  cases cached with
  | true =>
    cases h2
    obtain ⟨f, hf⟩ := Option.isSome_iff_exists.mp e2
    refine ⟨f, hf, .inl ⟨rfl, ?_⟩⟩
    rw [e1] at hf ⊢
    exact l4 f hf
  | false =>
    obtain ⟨body, w2, h3, h4⟩ := web_bind_inv h2
    obtain ⟨resp, w3, h5, h6⟩ := web_bind_inv h3
    cases h6
    obtain ⟨path, w4, h7, h8⟩ := web_bind_inv h4
    cases h8
    obtain ⟨a1, a2, -⟩ := answered h5
    obtain ⟨k1, k2, k3⟩ := files_inv h7
    rw [← a2] at l1 l3
    rw [g3] at a1
    rw [k3]
    have hs := cacheToFile_sat (ff := web.faults) (reader := resp.body) (now := web.clock w2.ops) hv (hr w2.ops) hw l1
    obtain ⟨-, h9⟩ := sat_ok hs w2.ops rfl k1
    obtain ⟨-, d2, -⟩ := done_facts hv (hr _) l1 h9
    rw [← k2, ← e1] at d2
    exact ⟨_, d2, .inr ⟨rfl, resp, a1, h9.1, rfl⟩⟩

theorem svgToViewbox_content (decode : Str → Option SvgAttributes) (c : WikiConf) (hc : c.svgAbsolute = makeSvgSizeAbsolute decode) (web : WebEnv)
    (path : Str) (w : World) (f : File) (hf : w.fs.get path = some f) :
    (svgToViewbox c path web w).2.script = w.script ∧
    ∃ g, (svgToViewbox c path web w).2.fs.get path = some g ∧
      ((g.content = f.content ∧ (web.faults = noFaults → makeSvgSizeAbsolute decode f.content = none)) ∨
        makeSvgSizeAbsolute decode f.content = some g.content) := by
  unfold svgToViewbox
  rw [hf]
  simp only
  rw [hc]
  cases hm : makeSvgSizeAbsolute decode f.content with
  | none => exact ⟨rfl, f, hf, .inl ⟨rfl, fun _ => rfl⟩⟩
  | some new =>
    simp only
    split
    · rename_i hfault
      exact ⟨rfl, f, hf, .inl ⟨rfl, fun h => by rw [h] at hfault; cases hfault⟩⟩
    · exact ⟨rfl, ⟨new, _⟩, get_put_self _ _ _, .inr rfl⟩

theorem afterColon_of_named {image name : Str} (h : NamedBy image name) : afterColon image = .ok name := by
  obtain ⟨hn, pre, hp, rfl | ⟨rest, rfl⟩⟩ := h
  · unfold afterColon
    rw [List.append_assoc, List.singleton_append, split_singleton_append _ hp, split_singleton_of_not_mem hn]
    rfl
  · unfold afterColon
    rw [List.append_assoc, List.append_assoc, List.append_assoc, List.singleton_append, split_singleton_append _ hp, List.singleton_append,
      split_singleton_append _ hn]
    rfl

/-- **C73**: Whatever is in the cache, whatever the servers answer and whichever file operations fail: when an image has been downloaded, the file of this
name in the cache is complete. It is the one that was there before, or it is exactly what the image server has sent in answer to the request for the file
that the image's page names; in SVG files the size is the one of the view box if this is configured. -/
theorem C73_image_file_is_the_delivered_one (decode : Str → Option SvgAttributes) (c : WikiConf) (hc : c.svgAbsolute = makeSvgSizeAbsolute decode)
    (web : WebEnv) (host image name path : Str) (fresh : Bool) (w w' : World)
    (hh : (0x2F : Byte) ∉ host) (hi : (0x2F : Byte) ∉ c.imageHost) (hx : ∀ s, (0x2F : Byte) ∉ c.md5hex s)
    (himg : NamedBy image name) (hn : name ∉ [b!"", b!".", b!".."]) (hd : (cleanElems web.cache.cacheDir).getLast? ≠ some b!".tmp")
    (hw : WalkOk web.cache) (hr : ∀ k, Digits (web.rnd k)) (hwf : w.fs.WF)
    (h : downloadImage c host image web w = (.ok (path, fresh), w')) :
    path = getFilePathInCache web.cache.cacheDir b!"images" (name.map fun c => if c = 0x20 then 0x5F else c) ∧
    ∃ f, w'.fs.get path = some f ∧
      ((fresh = false ∧ ∃ g, w.fs.get path = some g ∧ f.content = g.content) ∨
       (fresh = true ∧ ∃ page w1 actual url answer, downloadArticle c host (b!"File:" ++ name) web w = (.ok page, w1) ∧ NamedBy page.title actual ∧
          AsksForFile c host (actual.map fun c => if c = 0x20 then 0x5F else c) (.request b!"GET" url []) ∧
          Answered web b!"GET" url [] w1.script w'.script answer ∧ answer.body.eof = true ∧
          StoredAs c decode (web.faults = noFaults) path answer.body.bytes f.content)) := by
  have hcolon := himg.1
  have himg' := afterColon_of_named himg
  unfold downloadImage at h
  obtain ⟨n, wa, g1, h1⟩ := web_bind_inv h
  rw [himg'] at g1
  cases g1
  obtain ⟨page, wb, g2, h2⟩ := web_bind_inv h1
  obtain ⟨orig, wc, g3, h3⟩ := web_bind_inv h2
  rw [downloadArticle_title g2, afterColon_file hcolon] at g3
  cases g3
  obtain ⟨act, wd, g4, h4⟩ := web_bind_inv h3
  have hact : afterColon page.title = .ok act ∧ wd = wb := by
    cases ha : afterColon page.title <;> rw [ha] at g4 <;> cases g4
    exact ⟨rfl, rfl⟩
  obtain ⟨hact, rfl⟩ := hact
  obtain ⟨url, we, g5, h5⟩ := web_bind_inv h4
  have hurl : imageUrl c host (underscores act) = .ok url ∧ we = wd := by
    cases ha : imageUrl c host (underscores act) <;> rw [ha] at g5 <;> cases g5
    exact ⟨rfl, rfl⟩
  obtain ⟨hurl, rfl⟩ := hurl
  obtain ⟨⟨p, f⟩, wf, g6, h6⟩ := web_bind_inv h5
  obtain ⟨u, wg, g7, h7⟩ := web_bind_inv h6
  cases h7
  have hok := underscores_ok hn
  have hv := validKey_image (env := web.cache) hd hok
  -- the page of the image
  have hpage : we.fs.WF ∧ ∀ file, we.fs.get (getFilePathInCache web.cache.cacheDir imageFolder (underscores name)) = some file →
      w.fs.get (getFilePathInCache web.cache.cacheDir imageFolder (underscores name)) = some file := by
    unfold downloadArticle at g2
    obtain ⟨⟨q, fr⟩, v1, k1, k2⟩ := web_bind_inv g2
    obtain ⟨bytes, v2, k3, k4⟩ := web_bind_inv k2
    obtain ⟨r1, -, -⟩ := readBytes_inv k3
    obtain ⟨⟨t, content⟩, v3, k5, k6⟩ := web_bind_inv k4
    cases k6
    have hv3 : we = v2 := by
      cases hdec : c.decodeArticle bytes <;> rw [hdec] at k5 <;> cases k5
      rfl
    subst hv3
    obtain ⟨-, d2, -, d4⟩ := delivered (validKey_article hd _) hw hr hwf k1
    rw [r1]
    refine ⟨d2, fun file hfile => d4 _ _ _ hv ?_ hfile⟩
    intro e
    exact absurd (C09_entry_paths_injective _ _ _ _ _ (cache_folders_plain _ (by decide)) (cache_folders_plain _ (by decide)) hok
      (validKey_article (env := web.cache) hd _).name_ok e).1 (by decide)
  obtain ⟨hwe, hold⟩ := hpage
  obtain ⟨k1, -, -⟩ := downloadAndCache_exists hv hw hr hwe g6
  obtain ⟨file, hfile, hfrom⟩ := delivered_fresh hv hw hr hwe g6
  subst k1
  rw [← underscores_map]
  refine ⟨rfl, ?_⟩
  rcases hfrom with ⟨rfl, g, hg, hcont⟩ | ⟨rfl, answer, ha, heof, hcont⟩
  · cases g7
    exact ⟨file, hfile, .inl ⟨rfl, g, hold g hg, hcont⟩⟩
  · have asks := imageUrl_asks c host _ url hh hi hx (no_space_underscores _) hurl
    rw [underscores_map] at asks
    unfold whenW at g7
    split at g7
    · rename_i hcond
      simp only [Bool.true_and, Bool.and_eq_true, beq_iff_eq] at hcond
      obtain ⟨e1, g, hg, hg2⟩ := svgToViewbox_content decode c hc web _ wf file hfile
      rw [g7] at e1 hg
      refine ⟨g, hg, .inr ⟨rfl, page, we, act, url, answer, g2, afterColon_named hact, asks, by rw [e1]; exact ha, heof, ?_⟩⟩
      rw [hcont] at hg2
      rcases hg2 with ⟨e, hn⟩ | e
      · exact .inl ⟨e, fun _ _ => hn⟩
      · exact .inr ⟨hcond.1, (ext_svg _).mp hcond.2, e⟩
    · rename_i hcond
      cases g7
      simp only [Bool.true_and, Bool.and_eq_true, beq_iff_eq] at hcond
      exact ⟨file, hfile, .inr ⟨rfl, page, we, act, url, answer, g2, afterColon_named hact, asks, ha, heof,
        .inl ⟨hcont, fun h1 h2 _ => absurd ⟨h1, (ext_svg _).mpr h2⟩ hcond⟩⟩⟩

/-- **C73**, SVG files: when everything works and the sizes are to be replaced, the file of a freshly downloaded SVG image with a relative width is the file that the
server has sent, with width and height of the view box. -/
theorem C73_svg_file_has_size_of_view_box (decode : Str → Option SvgAttributes) (c : WikiConf) (path content : Str) (hon : c.svgSizeToViewbox = true)
    (hsvg : b!".svg" <:+ path) (f : SvgFile) (hf : f.Plain) (width height : Str) (hdec : DecodesSize decode f width height) (hrel : Relative width)
    (x y w h box : Str) (hb : ViewBox x y w h box) (hm : (b!"viewBox", box) ∈ f.attributes)
    (faultless : Prop) (hfl : faultless) (hst : StoredAs c decode faultless path f.source content) :
    content = ((f.set b!"width" (w ++ b!"pt")).set b!"height" (h ++ b!"pt")).source := by
  have e := C64_size_is_the_one_of_the_view_box_partial decode f hf width height hdec hrel x y w h box hb hm
  rcases hst with ⟨-, h1⟩ | ⟨-, -, h1⟩
  · rw [h1 hon hsvg hfl] at e; cases e
  · rw [h1] at e; exact Option.some.inj e

/-- A decoder that finds the sizes of one file. -/
def percentDecode (s : Str) : Option SvgAttributes :=
  if s = b!"<svg width=\"100%\" height=\"100%\" viewBox=\"0 0 20 30\"/>" then some ⟨b!"100%", b!"100%", b!""⟩ else none

/-- A run: the page leads to a file with another name; the sizes in this file are replaced. -/
example :
    let c := { demoConf [] with svgSizeToViewbox := true, svgAbsolute := makeSvgSizeAbsolute percentDecode }
    let r := downloadImage c b!"de.wikipedia.org" b!"File:a b.svg" (demoWebBig ⟨true, none⟩)
      ⟨[], 0, [], [answer 200 [] [] b!"File:c.svg|", answer 200 [] [] b!"<svg width=\"100%\" height=\"100%\" viewBox=\"0 0 20 30\"/>"]⟩
    r.1 = .ok (b!"/c/images/a_b.svg", true) ∧
    r.2.fs.get b!"/c/images/a_b.svg" = some ⟨b!"<svg width=\"20pt\" height=\"30pt\" viewBox=\"0 0 20 30\"/>", 100⟩ ∧
    requestedUrls r.2.events = [articleUrl b!"de.wikipedia.org" b!"File:a b.svg", b!"https://upload.org/wikipedia/de/a/ab/c.svg"] := by
  decide +kernel

/-- A run: the sizes are not to be replaced. -/
example :
    let c := { demoConf [] with svgAbsolute := makeSvgSizeAbsolute percentDecode }
    let r := downloadImage c b!"de.wikipedia.org" b!"File:a b.svg" (demoWebBig ⟨true, none⟩)
      ⟨[], 0, [], [answer 200 [] [] b!"File:c.svg|", answer 200 [] [] b!"<svg width=\"100%\" height=\"100%\" viewBox=\"0 0 20 30\"/>"]⟩
    r.2.fs.get b!"/c/images/a_b.svg" = some ⟨b!"<svg width=\"100%\" height=\"100%\" viewBox=\"0 0 20 30\"/>", 100⟩ := by
  decide +kernel

example : NamedBy b!"File:a b.svg" b!"a b.svg" := ⟨by decide, b!"File", by decide, .inl rfl⟩

end Verif.Props
