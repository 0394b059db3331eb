import Verif.Props.Robust
import Verif.Model.MathPicture

/-!
# No path is twice in the file system

Whatever the program does with files, requests and commands, and whatever fails: there is at most one file for each path afterwards, if this
was the case before.
-/

namespace Verif.Props

open Verif.Go Verif.Model Verif.Spec Verif.Lemmas FSl

/-- File-system code after which no path is there twice. -/
def TidyF {α : Type} (m : FsM α) : Prop := ∀ ff n fs, fs.WF → (m ff n fs).fs.WF

namespace TidyF
variable {α β : Type}

theorem pure (a : α) : TidyF (Pure.pure a : FsM α) := fun _ _ _ h => h

theorem bind {m : FsM α} {f : α → FsM β} (h1 : TidyF m) (h2 : ∀ a, TidyF (f a)) : TidyF (m >>= f) := by
  intro ff n fs hf
  show (FsM.bind m f ff n fs).fs.WF
  have := h1 ff n fs hf
  unfold FsM.bind
  cases h : (m ff n fs).res with
  | ok a => simpa [h] using h2 a ff _ _ this
  | _ => simpa [h] using this

theorem prim {f : FS → Res α × FS} (h : ∀ fs, fs.WF → (f fs).2.WF) : TidyF (FsM.prim f) := by
  intro ff n fs hf
  unfold FsM.prim
  split
  · exact hf
  · exact h fs hf

theorem attempt {m : FsM α} (h1 : TidyF m) : TidyF (FsM.attempt m) := by
  intro ff n fs hf
  have := h1 ff n fs hf
  unfold FsM.attempt
  cases h : (m ff n fs).res <;> simpa [h] using this

theorem deferred {m : FsM α} {fin : FsM Unit} (h1 : TidyF m) (h2 : TidyF fin) : TidyF (FsM.deferred m fin) := by
  intro ff n fs hf
  have := h1 ff n fs hf
  unfold FsM.deferred
  cases h : (m ff n fs).res with
  | fatal => simpa [h] using this
  | _ => simpa [h] using h2 ff _ _ this

theorem remove (p : Str) : TidyF (FsM.remove p) := prim fun fs hf => by
  split
  · exact hf
  · split
    · exact WF_erase hf _
    · exact hf

theorem stat (p : Str) : TidyF (FsM.stat p) := prim fun fs hf => by split <;> exact hf

theorem copyTo (temp : Str) (now : Int) (bs : Str) (eof : Bool) : TidyF (Model.copyTo temp now bs eof) := by
  induction bs with
  | nil =>
    cases eof
    · exact fun _ _ _ h => h
    · exact pure _
  | cons b bs ih =>
    refine bind (prim fun fs hf => ?_) fun _ => ih
    split
    · exact WF_put hf _ _
    · exact hf

theorem evictLoop (env : CacheEnv) (net : Int) (k : Nat) (size : Int) : TidyF (Model.evictLoop env net k size) := by
  induction k generalizing size with
  | zero => unfold Model.evictLoop; split <;> exact pure _
  | succ k ih =>
    unfold Model.evictLoop
    split
    · refine bind ?_ fun s => ih s
      unfold deleteOne
      split
      · refine bind (prim fun fs hf => by split <;> exact hf) ?_
        rintro ⟨a, b⟩
        exact bind (remove _) fun _ => pure _
      · refine bind (prim fun fs hf => by split <;> exact hf) ?_
        rintro ⟨a, b⟩
        exact bind (remove _) fun _ => pure _
      · exact fun _ _ _ h => h
    · exact pure _

theorem cacheToFile (env : CacheEnv) (folder name : Str) (r : Reader) (rnd : Str) (now : Int) :
    TidyF (Model.cacheToFile env folder name r rnd now) := by
  unfold Model.cacheToFile
  refine bind (prim fun fs hf => hf) fun _ => bind (prim fun fs hf => ?_) fun _ => deferred ?_ (remove _)
  · split
    · exact hf
    · exact WF_put hf _ _
  refine bind (copyTo _ _ _ _) fun _ => bind ?_ fun _ => bind (prim fun fs hf => hf) fun _ =>
    bind (prim fun fs hf => ?_) fun _ => pure _
  · unfold evictIfNeeded
    split
    · refine bind (prim fun fs hf => hf) fun _ => bind (stat _) fun _ => bind ?_ fun _ => pure _
      unfold deleteFilesFromCacheIfNeeded
      exact bind (attempt (stat _)) fun _ => bind (fun _ _ _ h => h) fun _ => evictLoop _ _ _ _
    · exact pure _
  · split
    · exact WF_put (WF_erase hf _) _ _
    · exact hf

theorem getFile (env : CacheEnv) (folder name : Str) (now : Int) : TidyF (Model.getFile env folder name now) := by
  unfold Model.getFile
  refine bind (prim fun fs hf => hf) ?_
  intro found
  cases found with
  | none => exact pure _
  | some f =>
    unfold getFileFound
    refine bind ?_ fun _ => bind ?_ fun _ => pure _
    · unfold removeIfOutdated
      split
      · exact remove _
      · exact pure _
    · unfold touchIfLru
      split
      · refine bind (attempt (prim fun fs hf => ?_)) fun _ => pure _
        split
        · exact WF_put hf _ _
        · exact hf
      · exact pure _

end TidyF

/-- Code after which no path is there twice. -/
def Tidy {α : Type} (m : Web α) : Prop := ∀ e w, w.fs.WF → (m e w).2.fs.WF

namespace Tidy
variable {α β : Type}

theorem pure (a : α) : Tidy (Pure.pure a : Web α) := fun _ _ h => h

theorem throwErr : Tidy (Web.throwErr : Web α) := fun _ _ h => h

theorem bind {m : Web α} {f : α → Web β} (h1 : Tidy m) (h2 : ∀ a, Tidy (f a)) : Tidy (m >>= f) := by
  intro e w hw
  have h3 := h1 e w hw
  rcases h : m e w with ⟨o, w'⟩
  rw [h] at h3
  cases o with
  | ok a => rw [web_bind_ok h]; exact h2 a e w' h3
  | err => rw [web_bind_err h]; exact h3
  | panic => rw [web_bind_panic h]; exact h3
  | fatal => rw [web_bind_fatal h]; exact h3
  | waiting => rw [web_bind_waiting h]; exact h3

theorem attempt {m : Web α} (h1 : Tidy m) : Tidy (Web.attempt m) := by
  intro e w hw
  have := h1 e w hw
  unfold Web.attempt
  rcases h : m e w with ⟨o, w'⟩
  rw [h] at this
  cases o <;> exact this

theorem files {m : CacheEnv → Int → Str → FsM α} (h : ∀ e now rnd, TidyF (m e now rnd)) : Tidy (Web.files m) :=
  fun e w hw => h e.cache (e.clock w.ops) (e.rnd w.ops) e.faults w.ops w.fs hw

theorem lift (r : Res α) : Tidy (Web.lift r) := fun _ _ h => h

theorem orErr (o : Option α) : Tidy (Model.orErr o) := by
  cases o <;> exact fun _ _ h => h

theorem whenW {b : Bool} {m : Web Unit} (h : Tidy m) : Tidy (Model.whenW b m) := by
  unfold Model.whenW
  split
  · exact h
  · exact pure _

theorem doRequest (method url body : Str) : Tidy (Model.doRequest method url body) := fun _ _ h => h

theorem downloadAndCache (url folder name : Str) : Tidy (Model.downloadAndCache url folder name) := by
  unfold Model.downloadAndCache
  refine bind (files fun e now rnd => TidyF.getFile _ _ _ _) ?_
  rintro ⟨path, cached⟩
  cases cached with
  | true => exact pure _
  | false =>
    show Tidy (downloadMissing url folder name)
    unfold downloadMissing Model.download
    exact bind (bind (doRequest _ _ _) fun r => pure _) fun r =>
      bind (files fun e now rnd => TidyF.cacheToFile _ _ _ _ _ _) fun p => pure _

theorem readBytes (path : Str) : Tidy (Model.readBytes path) := by
  unfold Model.readBytes
  exact files fun e now rnd => TidyF.prim fun fs hf => by split <;> exact hf

theorem execute (args : List Str) (dir out : Str) : Tidy (Model.execute args dir out) := by
  intro e w hw
  unfold Model.execute
  simp only
  split
  · exact WF_put hw _ _
  · exact hw

theorem svgToViewbox (c : WikiConf) (path : Str) : Tidy (Model.svgToViewbox c path) := by
  intro e w hw
  unfold Model.svgToViewbox
  split
  · split
    · split
      · exact hw
      · exact WF_put hw _ _
    · exact hw
  · exact hw

theorem downloadArticle (c : WikiConf) (host title : Str) : Tidy (Model.downloadArticle c host title) := by
  unfold Model.downloadArticle
  refine bind (downloadAndCache _ _ _) ?_
  rintro ⟨path, b⟩
  refine bind (readBytes _) fun bytes => bind (orErr _) ?_
  rintro ⟨t, content⟩
  exact pure _

theorem evaluateTemplate (c : WikiConf) (template cacheFile : Str) : Tidy (Model.evaluateTemplate c template cacheFile) := by
  unfold Model.evaluateTemplate
  refine bind (downloadAndCache _ _ _) ?_
  rintro ⟨path, b⟩
  exact bind (readBytes _) fun bytes => orErr _

theorem renderMath (c : WikiConf) (cacheDir formula : Str) : Tidy (Model.renderMath c cacheDir formula) := by
  have hreq : Tidy (requestMathResource c formula) := by
    unfold requestMathResource
    refine bind (doRequest _ _ _) fun r => ?_
    split
    · exact throwErr
    · exact bind (files fun e now rnd => TidyF.cacheToFile _ _ _ _ _ _) fun _ => pure _
  have hget : Tidy (getMathResource c formula) := by
    unfold getMathResource
    refine bind (attempt (files fun e now rnd => TidyF.getFile _ _ _ _)) ?_
    intro found
    rcases found with _ | ⟨path, _ | _⟩
    · exact hreq
    · exact hreq
    · exact readBytes _
  unfold Model.renderMath
  refine bind hget fun name => bind (downloadAndCache _ _ _) ?_
  rintro ⟨svg, b⟩
  cases c.mathConverter with
  | none => exact pure _
  | wikimedia =>
    refine bind (downloadAndCache _ _ _) ?_
    rintro ⟨png, b⟩
    exact pure _
  | template => exact bind (execute _ _ _) fun _ => pure _
  | unknown => exact throwErr

theorem downloadImage (c : WikiConf) (host i : Str) : Tidy (Model.downloadImage c host i) := by
  unfold Model.downloadImage
  refine bind (lift _) fun name => bind (downloadArticle _ _ _) fun a => bind (lift _) fun on => bind (lift _) fun an =>
      bind (lift _) fun url => bind (downloadAndCache _ _ _) ?_
  rintro ⟨path, fresh⟩
  exact bind (whenW (svgToViewbox _ _)) fun _ => pure _

theorem postProcessImage (c : WikiConf) (cacheDir path : Str) (fresh : Bool) : Tidy (Model.postProcessImage c cacheDir path fresh) := by
  unfold Model.postProcessImage
  refine bind ?_ ?_
  · unfold convertIfNeeded
    split
    · refine bind (fun _ _ h => h) fun ex => ?_
      split
      · exact pure _
      · exact bind (execute _ _ _) fun _ => pure _
    · exact pure _
  · rintro ⟨p, f⟩
    exact whenW (execute _ _ _)

theorem downloadImages (c : WikiConf) (cacheDir : Str) (l : List Str) : Tidy (Model.downloadImages c cacheDir l) := by
  have htry : ∀ i hosts failed, Tidy (tryHosts c cacheDir i hosts failed) := by
    intro i hosts
    induction hosts with
    | nil =>
      intro failed
      unfold tryHosts
      split
      · exact throwErr
      · exact pure _
    | cons host hosts ih =>
      intro failed
      unfold tryHosts
      refine bind (attempt (downloadImage c host i)) ?_
      rintro (_ | ⟨path, fresh⟩)
      · exact ih true
      · exact postProcessImage _ _ _ _
  induction l with
  | nil => exact pure _
  | cons i l ih => exact bind (htry i _ _) fun _ => ih

theorem mathPicture (decode : Str → Option SvgAttributes) (c : WikiConf) (cacheDir formula : Str) : Tidy (Model.mathPicture decode c cacheDir formula) := by
  unfold Model.mathPicture
  refine bind (renderMath _ _ _) ?_
  rintro ⟨svg, png⟩
  refine bind ?_ fun a => pure _
  unfold readSvgAttributes
  exact bind (readBytes _) fun _ => orErr _

end Tidy

end Verif.Props
