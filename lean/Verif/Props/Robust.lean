import Verif.Props.Wikipedia

/-! # C51: no answer crashes the program; C52: converted pictures are current -/

namespace Verif.Props

open Verif.Go Verif.Model Verif.Spec Verif.Lemmas

/-! ## Functions that never panic -/

/-- File-system code that never panics. -/
def CalmF {α : Type} (m : FsM α) : Prop := ∀ ff n fs, (m ff n fs).res ≠ .panic

namespace CalmF
variable {α β : Type}

theorem pure (a : α) : CalmF (Pure.pure a : FsM α) := fun _ _ _ => by intro h; cases h

theorem bind {m : FsM α} {f : α → FsM β} (h1 : CalmF m) (h2 : ∀ a, CalmF (f a)) : CalmF (m >>= f) := by
  intro ff n fs
  show (FsM.bind m f ff n fs).res ≠ .panic
  have := h1 ff n fs
  unfold FsM.bind
  cases h : (m ff n fs).res with
  | ok a => simpa [h] using h2 a ff _ _
  | err => simp [h]
  | panic => exact absurd h this
  | fatal => simp [h]

theorem prim {f : FS → Res α × FS} (h : ∀ fs, (f fs).1 ≠ .panic) : CalmF (FsM.prim f) := by
  intro ff n fs
  unfold FsM.prim
  split
  · intro h; cases h
  · exact h fs

theorem attempt {m : FsM α} (h1 : CalmF m) : CalmF (FsM.attempt m) := by
  intro ff n fs
  have := h1 ff n fs
  unfold FsM.attempt
  cases h : (m ff n fs).res with
  | panic => exact absurd h this
  | _ => simp [h]

theorem deferred {m : FsM α} {fin : FsM Unit} (h1 : CalmF m) : CalmF (FsM.deferred m fin) := by
  intro ff n fs
  have := h1 ff n fs
  unfold FsM.deferred
  cases h : (m ff n fs).res with
  | panic => exact absurd h this
  | _ => simp [h]

theorem remove (p : Str) : CalmF (FsM.remove p) := prim fun fs => by
  split
  · simp
  · split <;> simp

theorem stat (p : Str) : CalmF (FsM.stat p) := prim fun fs => by split <;> simp

theorem copyTo (temp : Str) (now : Int) (bs : Str) (eof : Bool) : CalmF (Model.copyTo temp now bs eof) := by
  induction bs with
  | nil =>
    cases eof
    · intro _ _ _ h; cases h
    · exact pure _
  | cons b bs ih =>
    exact bind (prim fun fs => by split <;> simp) fun _ => ih

theorem evictLoop {env : CacheEnv} (h : env.strategy ≠ .largest) (net : Int) (k : Nat) (size : Int) :
    CalmF (Model.evictLoop env net k size) := by
  induction k generalizing size with
  | zero => unfold Model.evictLoop; split <;> exact pure _
  | succ k ih =>
    unfold Model.evictLoop
    split
    · refine bind ?_ fun s => ih s
      unfold deleteOne
      split
      · rename_i h'; exact absurd h' h
      · refine bind (prim fun fs => by split <;> simp) ?_
        rintro ⟨a, b⟩
        exact bind (remove _) fun _ => pure _
      · intro _ _ _ h; cases h
    · exact pure _

theorem cacheToFile {env : CacheEnv} (h : env.strategy ≠ .largest) (folder name : Str) (r : Reader) (rnd : Str)
    (now : Int) : CalmF (Model.cacheToFile env folder name r rnd now) := by
  unfold Model.cacheToFile
  refine bind (prim fun fs => by simp) fun _ => bind (prim fun fs => by split <;> simp) fun _ => deferred ?_
  refine bind (copyTo _ _ _ _) fun _ => bind ?_ fun _ => bind (prim fun fs => by simp) fun _ =>
    bind (prim fun fs => by split <;> simp) fun _ => pure _
  unfold evictIfNeeded
  split
  · refine bind (prim fun fs => by simp) fun _ => bind (stat _) fun _ => bind ?_ fun _ => pure _
    unfold deleteFilesFromCacheIfNeeded
    refine bind (attempt (stat _)) fun _ => bind ?_ fun _ => evictLoop h _ _ _
    intro _ _ _ h; cases h
  · exact pure _

theorem getFile (env : CacheEnv) (folder name : Str) (now : Int) : CalmF (Model.getFile env folder name now) := by
  unfold Model.getFile
  refine bind (prim fun fs => by simp) ?_
  intro found
  cases found with
  | none => exact pure _
  | some f =>
    unfold getFileFound
    refine bind ?_ fun _ => bind ?_ fun _ => pure _
    · unfold removeIfOutdated
      split
      · exact remove _
      · exact pure _
    · unfold touchIfLru
      split
      · exact bind (attempt (prim fun fs => by split <;> simp)) fun _ => pure _
      · exact pure _

end CalmF

/-- Code that never panics, whatever the servers answer, unless the strategy `largest` is used (see
`C05_fitting_file_not_stored` for the panic in this case). -/
def Calm {α : Type} (m : Web α) : Prop := ∀ e w, e.cache.strategy ≠ .largest → (m e w).1 ≠ .panic

namespace Calm
variable {α β : Type}

theorem pure (a : α) : Calm (Pure.pure a : Web α) := fun _ _ _ => by intro h; cases h

theorem throwErr : Calm (Web.throwErr : Web α) := fun _ _ _ => by intro h; cases h

theorem bind {m : Web α} {f : α → Web β} (h1 : Calm m) (h2 : ∀ a, Calm (f a)) : Calm (m >>= f) := by
  intro e w he
  rcases h : m e w with ⟨o, w'⟩
  cases o with
  | ok a => rw [web_bind_ok h]; exact h2 a e w' he
  | err => rw [web_bind_err h]; intro h; cases h
  | panic => exact absurd (by rw [h]) (h1 e w he)
  | fatal => rw [web_bind_fatal h]; intro h; cases h
  | waiting => rw [web_bind_waiting h]; intro h; cases h

theorem bind' {m : Web α} {f : α → Web β} (h1 : Calm m) (h2 : ∀ a e w w', m e w = (.ok a, w') → Calm (f a)) :
    Calm (m >>= f) := by
  intro e w he
  rcases h : m e w with ⟨o, w'⟩
  cases o with
  | ok a => rw [web_bind_ok h]; exact h2 a e w w' h e w' he
  | err => rw [web_bind_err h]; intro h; cases h
  | panic => exact absurd (by rw [h]) (h1 e w he)
  | fatal => rw [web_bind_fatal h]; intro h; cases h
  | waiting => rw [web_bind_waiting h]; intro h; cases h

theorem attempt {m : Web α} (h1 : Calm m) : Calm (Web.attempt m) := by
  intro e w he
  have := h1 e w he
  unfold Web.attempt
  rcases h : m e w with ⟨o, w'⟩
  rw [h] at this
  cases o with
  | panic => exact absurd rfl this
  | _ => simp

theorem files {m : CacheEnv → Int → Str → FsM α} (h : ∀ e now rnd, e.strategy ≠ .largest → CalmF (m e now rnd)) :
    Calm (Web.files m) := by
  intro e w he
  have := h e.cache (e.clock w.ops) (e.rnd w.ops) he e.faults w.ops w.fs
  unfold Web.files
  simp only
  cases hr : (m e.cache (e.clock w.ops) (e.rnd w.ops) e.faults w.ops w.fs).res with
  | panic => exact absurd hr this
  | _ => simp [Web.ofRes]

theorem lift {r : Res α} (h : r ≠ .panic) : Calm (Web.lift r) := by
  intro e w he
  cases r with
  | panic => exact absurd rfl h
  | _ => simp [Web.lift, Web.ofRes]

theorem orErr (o : Option α) : Calm (Model.orErr o) := by
  intro e w he
  cases o <;> (intro h; cases h)

theorem whenW {b : Bool} {m : Web Unit} (h : Calm m) : Calm (Model.whenW b m) := by
  unfold Model.whenW
  split
  · exact h
  · exact pure _

theorem doRequest (method url body : Str) : Calm (Model.doRequest method url body) := by
  have key : ∀ (l : List Answer) (body : Str), (requestLoop method url body l).2.1 ≠ .panic := by
    intro l
    induction l with
    | nil => intro body; simp [requestLoop]
    | cons x l ih =>
      intro body
      cases x with
      | failed => simp [requestLoop]
      | response r =>
        unfold requestLoop
        split
        · exact ih []
        · split
          · simp
          · split <;> simp
  intro e w he
  exact key w.script body

theorem downloadAndCache (url folder name : Str) : Calm (Model.downloadAndCache url folder name) := by
  unfold Model.downloadAndCache
  refine bind (files fun e now rnd he => CalmF.getFile _ _ _ _) ?_
  rintro ⟨path, cached⟩
  cases cached with
  | true => exact pure _
  | false =>
    show Calm (downloadMissing url folder name)
    unfold downloadMissing Model.download
    exact bind (bind (doRequest _ _ _) fun r => pure _) fun r =>
      bind (files fun e now rnd he => CalmF.cacheToFile he _ _ _ _ _) fun p => pure _

theorem readBytes (path : Str) : Calm (Model.readBytes path) := by
  unfold Model.readBytes
  exact files fun e now rnd he => CalmF.prim fun fs => by split <;> simp

theorem execute (args : List Str) (dir out : Str) : Calm (Model.execute args dir out) := by
  intro e w he
  unfold Model.execute
  simp only
  split <;> simp

theorem svgToViewbox (c : WikiConf) (path : Str) : Calm (Model.svgToViewbox c path) := by
  intro e w he
  unfold Model.svgToViewbox
  split
  · split
    · split <;> simp
    · simp
  · simp

end Calm

/-- **C51** Downloading an article never crashes, whatever the server answers. -/
theorem C51_article (c : WikiConf) (host title : Str) (env : WebEnv) (w : World)
    (hs : env.cache.strategy ≠ .largest) : (downloadArticle c host title env w).1 ≠ .panic := by
  have : Calm (downloadArticle c host title) := by
    unfold downloadArticle
    refine .bind (.downloadAndCache _ _ _) ?_
    rintro ⟨path, b⟩
    refine .bind (.readBytes _) fun bytes => .bind (.orErr _) ?_
    rintro ⟨t, content⟩
    exact .pure _
  exact this env w hs

/-- **C51** Evaluating a template never crashes, whatever the server answers. -/
theorem C51_template (c : WikiConf) (template cacheFile : Str) (env : WebEnv) (w : World)
    (hs : env.cache.strategy ≠ .largest) : (evaluateTemplate c template cacheFile env w).1 ≠ .panic := by
  have : Calm (evaluateTemplate c template cacheFile) := by
    unfold evaluateTemplate
    refine .bind (.downloadAndCache _ _ _) ?_
    rintro ⟨path, b⟩
    exact .bind (.readBytes _) fun bytes => .orErr _
  exact this env w hs

/-- **C51** Rendering a formula never crashes, whatever the server answers. -/
theorem C51_math (c : WikiConf) (cacheDir formula : Str) (env : WebEnv) (w : World)
    (hs : env.cache.strategy ≠ .largest) : (renderMath c cacheDir formula env w).1 ≠ .panic := by
  have hreq : Calm (requestMathResource c formula) := by
    unfold requestMathResource
    refine .bind (.doRequest _ _ _) fun r => ?_
    split
    · exact .throwErr
    · exact .bind (.files fun e now rnd he => CalmF.cacheToFile he _ _ _ _ _) fun _ => .pure _
  have hget : Calm (getMathResource c formula) := by
    unfold getMathResource
    refine .bind (.attempt (.files fun e now rnd he => CalmF.getFile _ _ _ _)) ?_
    intro found
    rcases found with _ | ⟨path, _ | _⟩
    · exact hreq
    · exact hreq
    · exact .readBytes _
  have : Calm (renderMath c cacheDir formula) := by
    unfold renderMath
    refine .bind hget fun name => .bind (.downloadAndCache _ _ _) ?_
    rintro ⟨svg, b⟩
    cases c.mathConverter with
    | none => exact .pure _
    | wikimedia =>
      refine .bind (.downloadAndCache _ _ _) ?_
      rintro ⟨png, b⟩
      exact .pure _
    | template => exact .bind (.execute _ _ _) fun _ => .pure _
    | unknown => exact .throwErr
  exact this env w hs

theorem afterColon_calm {s : Str} (h : (0x3A : Byte) ∈ s) : afterColon s ≠ .panic := by
  obtain ⟨a, b, rfl, ha⟩ := List.eq_append_cons_of_mem h
  unfold afterColon
  rw [split_singleton_append b ha]
  cases hb : split b b!":" with
  | nil => exact absurd hb (split_ne_nil _ (by simp))
  | cons y l => simp [index]

theorem downloadArticle_titles {c : WikiConf} {host title : Str} {env : WebEnv} {w w' : World} {a : ArticleDto}
    (h : downloadArticle c host title env w = (.ok a, w')) :
    a.originalTitle = title ∧ ∃ answer, c.decodeArticle answer = some (a.title, a.content) := by
  unfold downloadArticle at h
  obtain ⟨⟨path, b⟩, w1, -, h⟩ := web_bind_inv h
  obtain ⟨bytes, w2, -, h⟩ := web_bind_inv h
  obtain ⟨⟨t, content⟩, w3, h3, h⟩ := web_bind_inv h
  cases hd : c.decodeArticle bytes with
  | none => rw [hd] at h3; cases h3
  | some x =>
    rw [hd] at h3
    cases h3
    cases h
    exact ⟨rfl, bytes, hd⟩

/-- **C51** Downloading images does not crash if the image names have a prefix and the servers only answer with
titles that have one. (For the image names this is established by the parser.) -/
theorem C51_images_partial (c : WikiConf) (cacheDir : Str) (images : List Str) (env : WebEnv) (w : World)
    (hs : env.cache.strategy ≠ .largest) (hmd5 : ∀ x, 2 ≤ (c.md5hex x).length)
    (hnames : ∀ i ∈ images, (0x3A : Byte) ∈ i)
    (htitles : ∀ answer title content, c.decodeArticle answer = some (title, content) → (0x3A : Byte) ∈ title) :
    (downloadImages c cacheDir images env w).1 ≠ .panic := by
  have hart : ∀ host title, Calm (downloadArticle c host title) := fun host title e w he => C51_article c host title e w he
  have hurl : ∀ host name, imageUrl c host name ≠ .panic := by
    intro host name
    have := hmd5 name
    unfold imageUrl
    match hm : c.md5hex name, this with
    | d0 :: d1 :: l, _ =>
      have h0 : index (d0 :: d1 :: l) 0 = .ok d0 := rfl
      have h1 : index (d0 :: d1 :: l) 1 = .ok d1 := rfl
      simp only [h0, h1]
      intro h; cases h
  have himg : ∀ host i, (0x3A : Byte) ∈ i → Calm (downloadImage c host i) := by
    intro host i hi
    unfold downloadImage
    refine .bind (.lift (afterColon_calm hi)) fun name => .bind' (hart _ _) ?_
    intro a e w w' ha
    obtain ⟨h1, ans, h2⟩ := downloadArticle_titles ha
    refine .bind (.lift (afterColon_calm ?_)) fun on => .bind (.lift (afterColon_calm (htitles _ _ _ h2))) fun an =>
      .bind (.lift (hurl _ _)) fun url => .bind (.downloadAndCache _ _ _) ?_
    · rw [h1]; simp
    · rintro ⟨path, fresh⟩
      exact .bind (.whenW (.svgToViewbox _ _)) fun _ => .pure _
  have hpost : ∀ path fresh, Calm (postProcessImage c cacheDir path fresh) := by
    intro path fresh
    unfold postProcessImage
    refine .bind ?_ ?_
    · unfold convertIfNeeded
      split
      · refine .bind (fun _ _ _ h => by cases h) fun ex => ?_
        split
        · exact .pure _
        · exact .bind (.execute _ _ _) fun _ => .pure _
      · exact .pure _
    · rintro ⟨p, f⟩
      exact .whenW (.execute _ _ _)
  have htry : ∀ i, (0x3A : Byte) ∈ i → ∀ hosts failed, Calm (tryHosts c cacheDir i hosts failed) := by
    intro i hi hosts
    induction hosts with
    | nil =>
      intro failed
      unfold tryHosts
      split
      · exact .throwErr
      · exact .pure _
    | cons host hosts ih =>
      intro failed
      unfold tryHosts
      refine .bind (.attempt (himg host i hi)) ?_
      rintro (_ | ⟨path, fresh⟩)
      · exact ih true
      · exact hpost _ _
  have hall : ∀ l : List Str, (∀ i ∈ l, (0x3A : Byte) ∈ i) → Calm (downloadImages c cacheDir l) := by
    intro l
    induction l with
    | nil => intro _; exact .pure _
    | cons i l ih =>
      intro hl
      exact .bind (htry i (hl i (by simp)) _ _) fun _ => ih fun j hj => hl j (by simp [hj])
  exact hall images hnames env w hs

example : (0x3A : Byte) ∈ b!"File:a.jpg" ∧ (demoWebBig ⟨true, none⟩).cache.strategy ≠ .largest := by decide

/-- **C51** fails: an answer whose title has no colon crashes the program. -/
theorem C51_title_without_colon_crashes :
    (downloadImages (demoConf [b!"h1"]) b!"/c" [b!"File:a.jpg"] (demoWebBig ⟨true, none⟩)
      ⟨[], 0, [], [answer 200 [] [] b!"a.jpg|"]⟩).1 = .panic := by
  decide +kernel

/-! ## C52: converted pictures -/

/-- **C52** The first conversion: if there is no converted file yet and the conversion succeeds, the converter was
started with the downloaded file and its output is the picture used. -/
theorem C52_first_conversion_partial (env : WebEnv) (path template out : Str) (fresh : Bool) (w : World)
    (ht : template ≠ []) (hno : w.fs.get (path ++ b!".png") = none)
    (hc : env.command (commandArgs (commandLine template path (path ++ b!".png"))) w.fs = ⟨true, some out⟩) :
    ∃ w', convertIfNeeded path fresh template env w = (.ok (path ++ b!".png", true), w') ∧
      w'.fs.get (path ++ b!".png") = some ⟨out, env.clock w.ops⟩ ∧
      w'.events = w.events ++ [.command (commandArgs (commandLine template path (path ++ b!".png"))) b!"."] := by
  unfold convertIfNeeded
  rw [if_pos ht]
  have h1 : pathExists (pngPath path) env w = (.ok false, w) := by
    unfold pathExists pngPath; rw [hno]; rfl
  have h2 : convertToPng path (pngPath path) template env w =
      (.ok (), { w with
        fs := w.fs.put (path ++ b!".png") ⟨out, env.clock w.ops⟩,
        events := w.events ++ [.command (commandArgs (commandLine template path (path ++ b!".png"))) b!"."] }) := by
    unfold convertToPng execute
    simp only [pngPath, hc]
    rfl
  rw [web_bind_ok h1]
  simp only [Bool.false_eq_true, if_false]
  rw [web_bind_ok h2]
  exact ⟨_, rfl, FSl.get_put_self _ _ _, rfl⟩

/-- **C52** fails: when the outdated picture is downloaded again, the old converted file stays in use. -/
theorem C52_stale_conversion :
    let c := { demoConf [b!"h1"] with commandSvgToPng := b!"conv {INPUT} {OUTPUT}" }
    let r := downloadImages c b!"/c" [b!"File:a.svg"] (demoWebBig ⟨true, some b!"new pixels"⟩)
      ⟨[(b!"/c/images/a.svg.png", ⟨b!"old pixels", 1⟩)], 0, [],
        [answer 200 [] [] b!"File:a.svg|", answer 200 [] [] b!"<new>"]⟩
    r.1 = .ok () ∧ r.2.fs.get b!"/c/images/a.svg" = some ⟨b!"<new>", 100⟩ ∧
    r.2.fs.get b!"/c/images/a.svg.png" = some ⟨b!"old pixels", 1⟩ := by
  decide +kernel

end Verif.Props
