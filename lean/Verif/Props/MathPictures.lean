import Verif.Model.MathPicture
import Verif.Spec.MathPicture
import Verif.Props.Requests
import Verif.Props.Command
import Verif.Props.Svg
import Verif.Lemmas.ImageFiles

/-! # C71: the picture of a formula -/

namespace Verif.Props
open Verif.Go Verif.Model Verif.Spec Verif.Lemmas FSl
open scoped List

theorem dotted_ok (id : Str) {ending : Str} (h : 2 < ending.length) : id ++ ending ∉ [b!"", b!".", b!".."] := by
  intro hm
  have hl : (id ++ ending).length ≤ 2 := by
    simp only [List.mem_cons, List.not_mem_nil, or_false] at hm
    rcases hm with hm | hm | hm <;> (rw [hm]; decide)
  rw [List.length_append] at hl
  omega

/-- Writing an entry writes no other entry of the cache. -/
theorem write_others {web : WebEnv} {folder name folder' name' : Str} {body : Reader} {v : World} {f : File}
    (hv : ValidKey web.cache folder name) (hv' : ValidKey web.cache folder' name') (hw : WalkOk web.cache)
    (hr : ∀ k, Digits (web.rnd k)) (hwf : v.fs.WF)
    (hne : getFilePathInCache web.cache.cacheDir folder' name' ≠ getFilePathInCache web.cache.cacheDir folder name)
    (h : (cacheToFile web.cache folder name body (web.rnd v.ops) (web.clock v.ops) web.faults v.ops v.fs).fs.get
      (getFilePathInCache web.cache.cacheDir folder' name') = some f) :
    v.fs.get (getFilePathInCache web.cache.cacheDir folder' name') = some f := by
  have ht := (temp_ne_out (filename' := name) hv' (hr v.ops)).symm
  rcases write_state (ff := web.faults) (reader := body) (now := web.clock v.ops) hv (hr v.ops) hw hwf v.ops with h1 | h1
  · rcases (mid_facts hv (hr _) hwf h1).2.2 _ ht with e | ⟨e, -⟩
    · rw [← e]; exact h
    · rw [h] at e; cases e
  · rcases (done_facts hv (hr _) hwf h1).2.2.2.2 _ ht hne with e | ⟨e, -⟩
    · rw [← e]; exact h
    · rw [h] at e; cases e

theorem answered {web : WebEnv} {method url body : Str} {w w1 : World} {answer : Response}
    (h : doRequest method url body web w = (.ok answer, w1)) :
    Answered web method url body w.script w1.script answer ∧ w1.fs = w.fs ∧ w1.ops = w.ops := by
  refine ⟨?_, (congrArg (fun x => x.2.fs) h).symm, (congrArg (fun x => x.2.ops) h).symm⟩
  intro v hv
  have e1 : (doRequest method url body web v).1 = (doRequest method url body web w).1 := by
    unfold doRequest; rw [hv]
  have e2 : (doRequest method url body web v).2.script = (doRequest method url body web w).2.script := by
    unfold doRequest; rw [hv]
  rw [e1, e2, h]
  exact ⟨rfl, rfl⟩

theorem files_inv {web : WebEnv} {α : Type} {m : CacheEnv → (now : Int) → (rnd : Str) → FsM α} {w w1 : World} {a : α}
    (h : Web.files m web w = (.ok a, w1)) :
    (m web.cache (web.clock w.ops) (web.rnd w.ops) web.faults w.ops w.fs).res = .ok a ∧
    w1.fs = (m web.cache (web.clock w.ops) (web.rnd w.ops) web.faults w.ops w.fs).fs ∧ w1.script = w.script := by
  unfold Web.files at h
  simp only at h
  obtain ⟨h1, h2⟩ := Prod.mk.inj h
  refine ⟨?_, by rw [← h2], by rw [← h2]⟩
  cases hg : (m web.cache (web.clock w.ops) (web.rnd w.ops) web.faults w.ops w.fs).res with
  | ok x => rw [hg] at h1; cases h1; rfl
  | err => rw [hg] at h1; cases h1
  | panic => rw [hg] at h1; cases h1
  | fatal => rw [hg] at h1; cases h1

/-- What a successful download leaves in the cache. -/
theorem delivered {web : WebEnv} {url folder name p : Str} {fresh : Bool} {w w' : World}
    (hv : ValidKey web.cache folder name) (hw : WalkOk web.cache) (hr : ∀ k, Digits (web.rnd k)) (hwf : w.fs.WF)
    (h : downloadAndCache url folder name web w = (.ok (p, fresh), w')) :
    p = getFilePathInCache web.cache.cacheDir folder name ∧ w'.fs.WF ∧
      (∃ f, w'.fs.get p = some f ∧ CachedOrDelivered web w.fs w.script w'.script url p f.content) ∧
      ∀ folder' name' f, ValidKey web.cache folder' name' →
        getFilePathInCache web.cache.cacheDir folder' name' ≠ getFilePathInCache web.cache.cacheDir folder name →
        w'.fs.get (getFilePathInCache web.cache.cacheDir folder' name') = some f →
        w.fs.get (getFilePathInCache web.cache.cacheDir folder' name') = some f := by
  obtain ⟨e1, e2, e3⟩ := downloadAndCache_exists hv hw hr hwf h
  refine ⟨e1, e3, ?_⟩
  obtain ⟨⟨q, cached⟩, w1, h1, h2⟩ := web_bind_inv h
  obtain ⟨g1, g2, g3⟩ := files_inv h1
  obtain ⟨l1, -, l3, l4⟩ := lookup_facts hv hwf (lookup_state (ff := web.faults) (now := web.clock w.ops) hv w.ops)
  rw [← g2] at l1 l3 l4
  cases cached with
  | true =>
    cases h2
    obtain ⟨f, hf⟩ := Option.isSome_iff_exists.mp e2
    refine ⟨⟨f, hf, .inl ⟨g3, ?_⟩⟩, fun folder' name' f' hv' hne hf' => by rw [← l3 _ hne]; exact hf'⟩
    rw [e1] at hf ⊢
    exact l4 f hf
  | false =>
    obtain ⟨body, w2, h3, h4⟩ := web_bind_inv h2
    obtain ⟨resp, w3, h5, h6⟩ := web_bind_inv h3
    cases h6
    obtain ⟨path, w4, h7, h8⟩ := web_bind_inv h4
    cases h8
    obtain ⟨a1, a2, -⟩ := answered h5
    obtain ⟨k1, k2, k3⟩ := files_inv h7
    rw [← a2] at l1 l3
    rw [g3] at a1
    rw [k3]
    refine ⟨?_, ?_⟩
    · have hs := cacheToFile_sat (ff := web.faults) (reader := resp.body) (now := web.clock w2.ops) hv (hr w2.ops) hw l1
      obtain ⟨-, h9⟩ := sat_ok hs w2.ops rfl k1
      obtain ⟨-, d2, -⟩ := done_facts hv (hr _) l1 h9
      rw [← k2, ← e1] at d2
      exact ⟨_, d2, .inr ⟨resp, a1, h9.1, rfl⟩⟩
    · intro folder' name' f' hv' hne hf'
      rw [k2] at hf'
      have := write_others hv hv' hw hr l1 hne hf'
      rw [l3 _ hne] at this
      exact this

theorem readBytes_inv {web : WebEnv} {path bytes : Str} {w w' : World} (h : readBytes path web w = (.ok bytes, w')) :
    w'.fs = w.fs ∧ w'.script = w.script ∧ ∃ f, w.fs.get path = some f ∧ f.content = bytes := by
  unfold readBytes Web.files FsM.readFile FsM.prim at h
  simp only at h
  split at h
  · cases h
  · split at h
    · rename_i f hf
      cases h
      exact ⟨rfl, rfl, f, hf, rfl⟩
    · cases h

/-- Where the id of a formula comes from. -/
theorem getMathResource_inv {c : WikiConf} {web : WebEnv} {formula id : Str} {w w' : World}
    (hs : c.sha1hex formula ∉ [b!"", b!".", b!".."]) (hd : (cleanElems web.cache.cacheDir).getLast? ≠ some b!".tmp")
    (hw : WalkOk web.cache) (hr : ∀ k, Digits (web.rnd k)) (hwf : w.fs.WF)
    (h : getMathResource c formula web w = (.ok id, w')) :
    FormulaId c web w.fs w.script w'.script formula id ∧ w'.fs.WF ∧
      ∀ name f, name ∉ [b!"", b!".", b!".."] →
        w'.fs.get (getFilePathInCache web.cache.cacheDir imageFolder name) = some f →
        w.fs.get (getFilePathInCache web.cache.cacheDir imageFolder name) = some f := by
  have hv : ValidKey web.cache mathFolder (c.sha1hex formula) := ⟨cache_folders_plain _ (by decide), by decide, hs, hd⟩
  have hne : ∀ name, name ∉ [b!"", b!".", b!".."] → getFilePathInCache web.cache.cacheDir imageFolder name ≠
      getFilePathInCache web.cache.cacheDir mathFolder (c.sha1hex formula) := by
    intro name hn e
    exact absurd (C09_entry_paths_injective _ _ _ _ _ (cache_folders_plain _ (by decide)) (cache_folders_plain _ (by decide)) hn hs e).1
      (by decide)
  obtain ⟨found, w1, h1, h2⟩ := web_bind_inv h
  have hfiles : Web.files (fun env now _ => getFile env mathFolder (c.sha1hex formula) now) web w =
      (Web.ofRes (getFile web.cache mathFolder (c.sha1hex formula) (web.clock w.ops) web.faults w.ops w.fs).res, { w with
        fs := (getFile web.cache mathFolder (c.sha1hex formula) (web.clock w.ops) web.faults w.ops w.fs).fs,
        ops := (getFile web.cache mathFolder (c.sha1hex formula) (web.clock w.ops) web.faults w.ops w.fs).step }) := rfl
  obtain ⟨l1, -, l3, -⟩ := lookup_facts hv hwf (lookup_state (ff := web.faults) (now := web.clock w.ops) hv w.ops)
  have husable := C07_usable_is_fresh web.cache mathFolder (c.sha1hex formula) (web.clock w.ops) w.ops w.fs web.faults hv
  generalize getFile web.cache mathFolder (c.sha1hex formula) (web.clock w.ops) web.faults w.ops w.fs = o at hfiles l1 l3 husable
  -- the question to the server
  have ask : w1.fs = o.fs → w1.script = w.script → requestMathResource c formula web w1 = (.ok id, w') →
      FormulaId c web w.fs w.script w'.script formula id ∧ w'.fs.WF ∧
      ∀ name f, name ∉ [b!"", b!".", b!".."] →
        w'.fs.get (getFilePathInCache web.cache.cacheDir imageFolder name) = some f →
        w.fs.get (getFilePathInCache web.cache.cacheDir imageFolder name) = some f := by
    intro hfs hscript h2
    obtain ⟨resp, w2, h3, h4, h5, p, h6⟩ := requestMathResource_inv c web formula w1 h2
    obtain ⟨a1, a2, -⟩ := answered h3
    obtain ⟨k1, k2, k3⟩ := files_inv h6
    rw [hscript] at a1
    have l1' : w2.fs.WF := by rw [a2, hfs]; exact l1
    refine ⟨.inr ⟨mathRequestData formula, resp, C49_math_form formula, by rw [k3]; exact a1, h4.symm, h5⟩, ?_, ?_⟩
    · rw [k2]
      rcases write_state (ff := web.faults) (reader := ⟨id, true⟩) (now := web.clock w2.ops) hv (hr w2.ops) hw l1' w2.ops
        with h | h
      · exact (mid_facts hv (hr _) l1' h).1
      · exact (done_facts hv (hr _) l1' h).1
    · intro name f hn hf
      rw [k2] at hf
      have := write_others hv (validKey_image hd hn) hw hr l1' (hne name hn) hf
      rw [a2, hfs, l3 _ (hne name hn)] at this
      exact this
  cases ho : o.res with
  | ok x =>
    obtain ⟨q, cached⟩ := x
    rw [ho] at hfiles
    rw [web_attempt_ok hfiles] at h1
    cases h1
    cases cached with
    | true =>
      obtain ⟨e1, f, hf, -, g, hg, hc⟩ := husable q ho
      obtain ⟨b1, b2, f', hf', hb⟩ := readBytes_inv h2
      refine ⟨.inl ⟨b2, f, by rw [e1] at hf; exact hf, ?_⟩, by rw [b1]; exact l1, ?_⟩
      · rw [← hb, ← hc]
        have : some f' = some g := by rw [← hf', ← hg]
        cases this
        rfl
      · intro name f hn hf
        rw [b1] at hf
        rw [← l3 _ (hne name hn)]
        exact hf
    | false => exact ask rfl rfl h2
  | err =>
    rw [ho] at hfiles
    rw [web_attempt_err hfiles] at h1
    cases h1
    exact ask rfl rfl h2
  | panic =>
    rw [ho] at hfiles
    unfold Web.attempt at h1
    rw [hfiles] at h1
    cases h1
  | fatal =>
    rw [ho] at hfiles
    unfold Web.attempt at h1
    rw [hfiles] at h1
    cases h1

/-- The path in the HTML leads to the entry of the cache. -/
theorem relative_entry (cacheDir name : Str) (hn : name ∉ [b!"", b!".", b!".."]) :
    isAbs (getPathRelativeToCache cacheDir (getFilePathInCache cacheDir imageFolder name)) = false ∧
    pathJoin [cacheDir, getPathRelativeToCache cacheDir (getFilePathInCache cacheDir imageFolder name)] =
      getFilePathInCache cacheDir imageFolder name ∧
    ((0x20 : Byte) ∉ name →
      urlDecode false (escapePathComponents (getPathRelativeToCache cacheDir (getFilePathInCache cacheDir imageFolder name))) =
        some (getPathRelativeToCache cacheDir (getFilePathInCache cacheDir imageFolder name))) := by
  obtain ⟨h1, h2, h3⟩ := C12_relative_path_round_trip cacheDir imageFolder name (cache_folders_plain _ (by decide)) hn
  rw [h1]
  exact ⟨h3, h2, fun hs => C44_decode_escaped_path_partial _ (relativePath_has_no_space name hn hs)⟩

/-- **C71**: Whatever is in the cache, whatever the server answers and whichever file operations fail: when a formula is shown as
a picture, this picture exists in the cache, under the relative path that the address in the HTML means. It is the picture of the id of this formula:
the SVG file is the one that the server delivers for this id (or that the cache has), the picture is made from it as configured,
and its size is the size of the SVG file. It is assumed that a converter that reports success has written its output file. -/
theorem C71_picture_of_the_formula (decode : Str → Option SvgAttributes) (c : WikiConf) (web : WebEnv)
    (formula path width height style : Str) (w w' : World)
    (hs : c.sha1hex formula ∉ [b!"", b!".", b!".."]) (hd : (cleanElems web.cache.cacheDir).getLast? ≠ some b!".tmp")
    (hw : WalkOk web.cache) (hr : ∀ k, Digits (web.rnd k)) (hwf : w.fs.WF)
    (hcmd : ∀ args fs, (web.command args fs).ok = true → (web.command args fs).output.isSome = true)
    (h : mathPicture decode c web.cache.cacheDir formula web w = (.ok (path, width, height, style), w')) :
    ∃ id script1 script2, FormulaId c web w.fs w.script script1 formula id ∧
      let svgPath := getFilePathInCache web.cache.cacheDir b!"images" (id ++ b!".svg")
      let picturePath := getFilePathInCache web.cache.cacheDir b!"images" (id ++ pictureEnding c)
      isAbs path = false ∧ pathJoin [web.cache.cacheDir, path] = picturePath ∧
      ((0x20 : Byte) ∉ id → urlDecode false (escapePathComponents path) = some path) ∧
      ∃ svg picture, w'.fs.get svgPath = some svg ∧ w'.fs.get picturePath = some picture ∧
        CachedOrDelivered web w.fs script1 script2 (c.mathApi ++ b!"/render/svg/" ++ id) svgPath svg.content ∧
        MadeFrom c web w.fs script2 w'.script id svgPath picturePath svg picture ∧
        (¬ b!"&ns" <:+: svg.content → decode svg.content = some ⟨width, height, style⟩) := by
  obtain ⟨⟨svgP, pngP⟩, w1, h1, h2⟩ := web_bind_inv h
  obtain ⟨a, w2, h3, h4⟩ := web_bind_inv h2
  obtain ⟨bytes, w3, h5, h6⟩ := web_bind_inv h3
  obtain ⟨g1, g2, f0, hf0, hbytes⟩ := readBytes_inv h5
  have hdec : parseSvgAttributes decode bytes = some a ∧ w3 = w2 := by
    cases hp : parseSvgAttributes decode bytes with
    | none => rw [hp] at h6; cases h6
    | some b => rw [hp] at h6; cases h6; exact ⟨rfl, rfl⟩
  obtain ⟨hdec, rfl⟩ := hdec
  cases h4
  obtain ⟨id, v0, k1, k2⟩ := web_bind_inv h1
  obtain ⟨hid, hwf0, hold0⟩ := getMathResource_inv hs hd hw hr hwf k1
  obtain ⟨⟨p, fresh⟩, v1, k3, k4⟩ := web_bind_inv k2
  have hsvg := dotted_ok id (ending := b!".svg") (by decide)
  have hpng := dotted_ok id (ending := b!".png") (by decide)
  have vsvg : ValidKey web.cache imageFolder (id ++ b!".svg") := validKey_image hd hsvg
  have vpng : ValidKey web.cache imageFolder (id ++ b!".png") := validKey_image hd hpng
  obtain ⟨rfl, hwf1, ⟨svg, hget, hfrom⟩, hold1⟩ := delivered vsvg hw hr hwf0 k3
  have hfrom : CachedOrDelivered web w.fs v0.script v1.script (c.mathApi ++ b!"/render/svg/" ++ id)
      (getFilePathInCache web.cache.cacheDir imageFolder (id ++ b!".svg")) svg.content := by
    rcases hfrom with ⟨e, f, hf, hc⟩ | hx
    · exact .inl ⟨e, f, hold0 _ _ hsvg hf, hc⟩
    · exact .inr hx
  have hne : getFilePathInCache web.cache.cacheDir imageFolder (id ++ b!".svg") ≠
      getFilePathInCache web.cache.cacheDir imageFolder (id ++ b!".png") := by
    intro e
    have := (C09_entry_paths_injective _ _ _ _ _ (cache_folders_plain _ (by decide)) (cache_folders_plain _ (by decide)) hsvg hpng e).2
    exact absurd (List.append_cancel_left this) (by decide)
  -- the size
  have size : ∀ svg : File, w'.fs.get svgP = some svg → ¬ b!"&ns" <:+: svg.content →
      decode svg.content = some ⟨a.width, a.height, a.style⟩ := by
    intro svg hsv hns
    rw [g1, hf0] at hsv
    cases hsv
    rw [← hbytes] at hdec
    unfold parseSvgAttributes at hdec
    have := C64_only_namespaces_are_removed [] f0.content (by simp) hns
    simp only [List.flatMap_nil, List.nil_append] at this
    rw [this] at hdec
    rw [hdec]
  refine ⟨id, v0.script, v1.script, hid, ?_⟩
  cases hm : c.mathConverter with
  | none =>
    rw [hm] at k4
    cases k4
    have hend : pictureEnding c = b!".svg" := by unfold pictureEnding; rw [if_pos hm]
    obtain ⟨r1, r2, r3⟩ := relative_entry web.cache.cacheDir _ hsvg
    rw [hend]
    refine ⟨r1, r2, fun hsp => r3 (by simpa using hsp), svg, svg, by rw [g1]; exact hget, by rw [g1]; exact hget, hfrom, ?_, size svg (by rw [g1]; exact hget)⟩
    unfold MadeFrom
    rw [hm]
    exact ⟨g2, rfl⟩
  | wikimedia =>
    rw [hm] at k4
    obtain ⟨⟨q, fresh'⟩, v2, k5, k6⟩ := web_bind_inv k4
    cases k6
    have hend : pictureEnding c = b!".png" := by unfold pictureEnding; rw [if_neg (by rw [hm]; decide)]
    obtain ⟨rfl, hwf2, ⟨png, hget2, hfrom2⟩, hold2⟩ := delivered vpng hw hr hwf1 k5
    obtain ⟨r1, r2, r3⟩ := relative_entry web.cache.cacheDir _ hpng
    have hold : v1.fs.get (getFilePathInCache web.cache.cacheDir imageFolder (id ++ b!".svg")) = some f0 :=
      hold2 _ _ _ vsvg hne hf0
    have hsame : some svg = some f0 := by rw [← hget, ← hold]
    cases hsame
    rw [hend]
    refine ⟨r1, r2, fun hsp => r3 (by simpa using hsp), f0, png, by rw [g1]; exact hf0, by rw [g1]; exact hget2, hfrom, ?_, size f0 (by rw [g1]; exact hf0)⟩
    unfold MadeFrom
    rw [hm]
    rw [g2]
    rcases hfrom2 with ⟨e, f, hf, hc⟩ | hx
    · exact .inl ⟨e, f, hold0 _ _ hpng (hold1 _ _ _ vpng hne.symm hf), hc⟩
    · exact .inr hx
  | template =>
    rw [hm] at k4
    obtain ⟨u, v2, k5, k6⟩ := web_bind_inv k4
    cases k6
    have hend : pictureEnding c = b!".png" := by unfold pictureEnding; rw [if_neg (by rw [hm]; decide)]
    obtain ⟨r1, r2, r3⟩ := relative_entry web.cache.cacheDir _ hpng
    unfold convertToPng execute at k5
    simp only at k5
    obtain ⟨k7, k8⟩ := Prod.mk.inj k5
    have hok : (web.command (commandArgs (commandLine c.commandMathSvgToPng
        (getFilePathInCache web.cache.cacheDir imageFolder (id ++ b!".svg"))
        (getFilePathInCache web.cache.cacheDir imageFolder (id ++ b!".png")))) v1.fs).ok = true := by
      by_contra hno
      rw [if_neg hno] at k7
      cases k7
    obtain ⟨out, hout⟩ := Option.isSome_iff_exists.mp (hcmd _ _ hok)
    have hout' : (web.command (commandArgs (commandLine c.commandMathSvgToPng
        (getFilePathInCache web.cache.cacheDir imageFolder (id ++ b!".svg"))
        (getFilePathInCache web.cache.cacheDir imageFolder (id ++ b!".png")))) v1.fs).output = some out := hout
    rw [hout'] at k8
    simp only at k8
    have hfs : w1.fs = v1.fs.put (getFilePathInCache web.cache.cacheDir imageFolder (id ++ b!".png")) ⟨out, web.clock v1.ops⟩ := by
      rw [← k8]
    rw [hend]
    have hsv : w'.fs.get (getFilePathInCache web.cache.cacheDir b!"images" (id ++ b!".svg")) = some svg := by
      have : (v1.fs.put (getFilePathInCache web.cache.cacheDir imageFolder (id ++ b!".png")) ⟨out, web.clock v1.ops⟩).get
          (getFilePathInCache web.cache.cacheDir imageFolder (id ++ b!".svg")) = some svg := by rw [get_put_ne hne]; exact hget
      rw [g1, hfs]
      exact this
    refine ⟨r1, r2, fun hsp => r3 (by simpa using hsp), svg, ⟨out, web.clock v1.ops⟩, hsv, by rw [g1, hfs]; exact get_put_self _ _ _, hfrom, ?_, size svg hsv⟩
    unfold MadeFrom
    rw [hm]
    refine ⟨by rw [g2, ← k8], fun n1 n2 => ⟨v1.fs, hget, ?_⟩⟩
    have hargs := C46_arguments_partial c.commandMathSvgToPng _ _ n1 n2 web v1
    have hargs2 : commandArgs (commandLine c.commandMathSvgToPng
        (getFilePathInCache web.cache.cacheDir b!"images" (id ++ b!".svg"))
        (getFilePathInCache web.cache.cacheDir b!"images" (id ++ b!".png"))) =
        (split c.commandMathSvgToPng b!" ").map (filled (getFilePathInCache web.cache.cacheDir b!"images" (id ++ b!".svg"))
          (getFilePathInCache web.cache.cacheDir b!"images" (id ++ b!".png"))) := by
      have e := List.append_cancel_left hargs
      injection e with e1 e2
      injection e1 with e3 e4
    simp only
    rw [← hargs2]
    exact ⟨hok, hout⟩
  | unknown =>
    rw [hm] at k4
    cases k4

/-- A decoder that finds the sizes of one file. -/
def demoDecode (s : Str) : Option SvgAttributes :=
  if s = b!"<svg width=\"2ex\" height=\"3ex\"/>" then some ⟨b!"2ex", b!"3ex", b!"vertical-align: -1ex"⟩ else none

def svgAnswer : Answer := answer 200 [] [] b!"<svg width=\"2ex\" height=\"3ex\"/>"
def idAnswer : Answer := .response ⟨200, [], [], b!"17ab", ⟨[], true⟩⟩

/-- A run: the server delivers the id and the pictures. -/
example :
    let r := mathPicture demoDecode { demoConf [] with mathConverter := .wikimedia } b!"/c" b!"x^2" (demoWebBig ⟨true, some b!"made"⟩)
      ⟨[], 0, [], [idAnswer, svgAnswer, answer 200 [] [] b!"pixels"]⟩
    r.1 = .ok (b!"images/17ab.png", b!"2ex", b!"3ex", b!"vertical-align: -1ex") ∧
    r.2.fs.get b!"/c/images/17ab.png" = some ⟨b!"pixels", 100⟩ ∧ r.2.events.length = 3 := by
  decide +kernel

/-- A run: the configured program makes the picture. -/
example :
    let r := mathPicture demoDecode { demoConf [] with mathConverter := .template, commandMathSvgToPng := b!"conv {INPUT} {OUTPUT}" } b!"/c"
      b!"x^2" (demoWebBig ⟨true, some b!"made"⟩) ⟨[], 0, [], [idAnswer, svgAnswer]⟩
    r.1 = .ok (b!"images/17ab.png", b!"2ex", b!"3ex", b!"vertical-align: -1ex") ∧
    r.2.fs.get b!"/c/images/17ab.png" = some ⟨b!"made", 100⟩ ∧ r.2.events.length = 3 := by
  decide +kernel

/-- A run: the SVG file itself is shown. -/
example :
    let r := mathPicture demoDecode (demoConf []) b!"/c" b!"x^2" (demoWebBig ⟨true, some b!"made"⟩) ⟨[], 0, [], [idAnswer, svgAnswer]⟩
    r.1 = .ok (b!"images/17ab.svg", b!"2ex", b!"3ex", b!"vertical-align: -1ex") ∧ r.2.events.length = 2 := by
  decide +kernel

end Verif.Props
