import Verif.Props.AnswersSent

/-!
# Pages with any eviction strategy, any ages of files and any failures of file operations (C78)

With an eviction strategy a file can vanish between two uses and be requested again, so that the page is not a function of the cache after
the run (C77). But each text that the run uses is one that was in the cache before or that the wiki has sent. A run that has made a page is
compared with the function of C69, which gets these texts as answers: the function has the same result, or it has no answer for a template.
-/

namespace Verif.Props
open Verif.Go Verif.Model Verif.Spec Verif.Lemmas FSl
open scoped List

/-- The cache is a folder in which files can be found. Nothing is said about the strategy, the size, ages or failures. -/
structure AnyCache (e : WebEnv) : Prop where
  dir : (cleanElems e.cache.cacheDir).getLast? ≠ some b!".tmp"
  walk : WalkOk e.cache
  digits : ∀ k, Digits (e.rnd k)

theorem AnyCache.key {e : WebEnv} (hu : AnyCache e) {folder name : Str} (hf : folder ∈ runFolders) (hn : name ∉ [b!"", b!".", b!".."]) :
    ValidKey e.cache folder name := ⟨(folder_plain hf).1, (folder_plain hf).2, hn, hu.dir⟩

/-! ### Files -/

theorem files_ok_inv {α : Type} {f : CacheEnv → Int → Str → FsM α} {e : WebEnv} {w w' : World} {a : α} (h : Web.files f e w = (.ok a, w')) :
    (f e.cache (e.clock w.ops) (e.rnd w.ops) e.faults w.ops w.fs).res = .ok a ∧
      w'.fs = (f e.cache (e.clock w.ops) (e.rnd w.ops) e.faults w.ops w.fs).fs ∧ Talks w w' := by
  unfold Web.files at h
  simp only [Prod.mk.injEq] at h
  obtain ⟨h1, h2⟩ := h
  refine ⟨?_, by rw [← h2], by rw [← h2]; exact .of_same rfl rfl⟩
  generalize (f e.cache (e.clock w.ops) (e.rnd w.ops) e.faults w.ops w.fs).res = x at h1
  cases x <;> cases h1
  rfl

theorem readBytes_ok_inv {e : WebEnv} {path : Str} {w w' : World} {b : Str} (h : readBytes path e w = (.ok b, w')) :
    (w.fs.get path).map File.content = some b ∧ w'.fs = w.fs ∧ Talks w w' := by
  obtain ⟨f1, f2, f3⟩ := readBytes_same h
  obtain ⟨h1, -, h3⟩ := files_ok_inv h
  refine ⟨?_, f1, h3⟩
  unfold FsM.readFile FsM.prim at h1
  split at h1
  · cases h1
  · cases hg : w.fs.get path with
    | none => simp only [hg] at h1; cases h1
    | some f => simp only [hg] at h1; cases h1; rfl

/-- After a download each file of the cache is an earlier one or the one that was sent. -/
theorem download_any {e : WebEnv} (hu : AnyCache e) {folder name : Str} (hf : folder ∈ runFolders) (hn : name ∉ [b!"", b!".", b!".."])
    {url : Str} {w w' : World} {r : Str × Bool} (hwf : w.fs.WF) (h : downloadAndCache url folder name e w = (.ok r, w')) :
    w'.fs.WF ∧ r.1 = getFilePathInCache e.cache.cacheDir folder name ∧ Talks w w' ∧
    ∀ folder' ∈ runFolders, ∀ name', name' ∉ [b!"", b!".", b!".."] → ∀ b,
      cachedBytes e.cache.cacheDir w'.fs folder' name' = some b →
      cachedBytes e.cache.cacheDir w.fs folder' name' = some b ∨ (folder' = folder ∧ name' = name ∧ Sent w w' url b) := by
  have hv := hu.key hf hn
  obtain ⟨⟨p, hit⟩, w1, g1, h⟩ := web_bind_inv h
  obtain ⟨r1, f1, t1⟩ := files_ok_inv g1
  obtain ⟨rfl, -⟩ := sat_ok (getFile_sat (ff := e.faults) (now := e.clock w.ops) (fs0 := w.fs) hv) w.ops rfl r1
  obtain ⟨hwf1, -, l1, l2⟩ := lookup_facts hv hwf (lookup_state (ff := e.faults) (now := e.clock w.ops) (fs0 := w.fs) hv w.ops)
  rw [← f1] at hwf1 l1 l2
  have hbytes : ∀ folder' name' b, cachedBytes e.cache.cacheDir w1.fs folder' name' = some b →
      cachedBytes e.cache.cacheDir w.fs folder' name' = some b := by
    intro folder' name' b hb
    unfold cachedBytes at hb ⊢
    by_cases heq : getFilePathInCache e.cache.cacheDir folder' name' = getFilePathInCache e.cache.cacheDir folder name
    · obtain ⟨f, hg, rfl⟩ := Option.map_eq_some_iff.mp hb
      rw [heq] at hg ⊢
      obtain ⟨g, hg', hc⟩ := l2 f hg
      exact Option.map_eq_some_iff.mpr ⟨g, hg', hc.symm⟩
    · rwa [l1 _ heq] at hb
  cases hit with
  | true =>
    cases h
    exact ⟨hwf1, rfl, t1, fun folder' _ name' _ b hb => .inl (hbytes folder' name' b hb)⟩
  | false =>
    obtain ⟨body, w2, g2, h⟩ := web_bind_inv (show (downloadMissing url folder name) e w1 = _ from h)
    obtain ⟨resp, w3, g3, g2⟩ := web_bind_inv g2
    cases g2
    obtain ⟨path, w4, g4, h⟩ := web_bind_inv h
    cases h
    obtain ⟨t2, s2, f2, o2⟩ := doRequest_sent g3
    obtain ⟨r4, f4, t3⟩ := files_ok_inv g4
    have hwf2 : w2.fs.WF := by rw [f2]; exact hwf1
    obtain ⟨rfl, hd⟩ := sat_ok (cacheToFile_sat (ff := e.faults) (reader := resp.body) (now := e.clock w2.ops) hv (hu.digits w2.ops) hu.walk hwf2)
      w2.ops rfl r4
    obtain ⟨d1, d2, d3, -, d5⟩ := done_facts hv (hu.digits _) hwf2 hd
    rw [← f4] at d1 d2 d3 d5
    refine ⟨d1, rfl, (t1.trans t2).trans t3, fun folder' hf' name' hn' b hb => ?_⟩
    by_cases heq : getFilePathInCache e.cache.cacheDir folder' name' = getFilePathInCache e.cache.cacheDir folder name
    · obtain ⟨rfl, rfl⟩ := C09_entry_paths_injective _ _ _ _ _ (folder_plain hf').1 (folder_plain hf).1 hn' hn heq
      unfold cachedBytes at hb
      rw [d2] at hb
      cases hb
      exact .inr ⟨rfl, rfl, sent_earlier t1 (sent_later s2 t2 t3)⟩
    · left
      refine hbytes _ _ _ ?_
      unfold cachedBytes at hb ⊢
      rcases d5 _ (temp_ne_out (filename' := name) (hu.key hf' hn') (hu.digits _)).symm heq with h | ⟨h, -⟩
      · rwa [h, f2] at hb
      · rw [h] at hb; cases hb

/-- The article is made from a text that was in the cache or that was sent. -/
theorem article_any {e : WebEnv} (hu : AnyCache e) (c : WikiConf) {host title : Str} {w w' : World} {dto : ArticleDto} (hwf : w.fs.WF)
    (h : downloadArticle c host title e w = (.ok dto, w')) :
    w'.fs.WF ∧ Told c e w w' ∧ dto.originalTitle = title ∧ ∃ b, c.decodeArticle b = some (dto.title, dto.content) ∧
      (cachedBytes e.cache.cacheDir w.fs articleFolder (articleFile title) = some b ∨ Sent w w' (articleUrl host title) b) := by
  obtain ⟨⟨path, fresh⟩, w1, g1, h⟩ := web_bind_inv h
  obtain ⟨bytes, w2, g2, h⟩ := web_bind_inv h
  obtain ⟨⟨t, text⟩, w3, g3, h⟩ := web_bind_inv h
  cases h
  have e3 : w' = w2 ∧ c.decodeArticle bytes = some (t, text) := by
    generalize c.decodeArticle bytes = x at g3 ⊢
    cases x <;> cases g3
    exact ⟨rfl, rfl⟩
  obtain ⟨rfl, hd⟩ := e3
  obtain ⟨b2, f2, t2⟩ := readBytes_ok_inv g2
  obtain ⟨hwf1, p1, t1, k1⟩ := download_any hu (by simp [runFolders]) (article_name_ok title) hwf g1
  simp only at p1
  subst p1
  refine ⟨by rw [f2]; exact hwf1, ⟨t1.trans t2, fun key hk b hb => ?_⟩, rfl, bytes, hd, ?_⟩
  · rw [f2] at hb
    rcases k1 templateFolder (by simp [runFolders]) key hk b hb with h | ⟨h, -⟩
    · exact .inl h
    · exact absurd h (by decide)
  · rcases k1 articleFolder (by simp [runFolders]) _ (article_name_ok title) bytes b2 with h | ⟨-, -, h⟩
    · exact .inl h
    · exact .inr (sent_later h t1 t2)

/-- The answer for a template is made from a text that was in the cache or that was sent. -/
theorem template_any {e : WebEnv} (hu : AnyCache e) (c : WikiConf) (hs : SumsUsable c) {t text : Str} {w w' : World} (hwf : w.fs.WF)
    (h : evaluateTemplate c t (c.sha1hex t) e w = (.ok text, w')) :
    w'.fs.WF ∧ Told c e w w' ∧ ∃ b, c.decodeTemplate b = some text ∧
      (cachedBytes e.cache.cacheDir w.fs templateFolder (c.sha1hex t) = some b ∨ Sent w w' (templateUrl c t) b) := by
  obtain ⟨⟨path, fresh⟩, w1, g1, h⟩ := web_bind_inv h
  obtain ⟨bytes, w2, g2, h⟩ := web_bind_inv h
  have e3 : w' = w2 ∧ c.decodeTemplate bytes = some text := by
    generalize c.decodeTemplate bytes = x at h ⊢
    cases x <;> cases h
    exact ⟨rfl, rfl⟩
  obtain ⟨rfl, hd⟩ := e3
  obtain ⟨b2, f2, t2⟩ := readBytes_ok_inv g2
  obtain ⟨hwf1, p1, t1, k1⟩ := download_any hu (by simp [runFolders]) (hs.sha1 t) hwf g1
  simp only at p1
  subst p1
  refine ⟨by rw [f2]; exact hwf1, ⟨t1.trans t2, fun key hk b hb => ?_⟩, bytes, hd, ?_⟩
  · rw [f2] at hb
    rcases k1 templateFolder (by simp [runFolders]) key hk b hb with h | ⟨-, h, h'⟩
    · exact .inl h
    · exact .inr ⟨t, h.symm, sent_later h' t1 t2⟩
  · rcases k1 templateFolder (by simp [runFolders]) _ (hs.sha1 t) bytes b2 with h | ⟨-, -, h⟩
    · exact .inl h
    · exact .inr (sent_later h t1 t2)

/-! ### A run and a function without effects -/

/-- A part of the run that succeeds has the result of the function, or the function reports an error. `P` holds at the beginning and at the
end, `Q` is known at the end. -/
def Traces {α : Type} (e : WebEnv) (P Q : World → Prop) (m : Model.Run α) (r : Option (Res α)) : Prop :=
  ∀ w a w', P w → m e w = some (.ok a, w') → P w' ∧ (Q w' → Q w ∧ (r = some (.ok a) ∨ r = some .err))

namespace Traces
variable {α β : Type} {e : WebEnv} {P Q : World → Prop}

theorem pure (a : α) : Traces e P Q (Pure.pure a) (some (.ok a)) := by
  intro w b w' hw h
  cases h
  exact ⟨hw, fun hq => ⟨hq, .inl rfl⟩⟩

theorem result (r : Option (Res α)) : Traces e P Q (Run.pureResult r) r := by
  intro w b w' hw h
  rcases r with _ | a | _ | _ | _ <;> cases h
  exact ⟨hw, fun hq => ⟨hq, .inl rfl⟩⟩

theorem bind {m : Model.Run α} {f : α → Model.Run β} {r : ExpM α} {g : α → ExpM β} (hm : Traces e P Q m r)
    (hf : ∀ a, Traces e P Q (f a) (g a)) : Traces e P Q (m >>= f) (r >>= g : ExpM β) := by
  intro w b w' hw h
  obtain ⟨a, w1, h1, h2⟩ := run_bind_inv h
  obtain ⟨p1, k1⟩ := hm w a w1 hw h1
  obtain ⟨p2, k2⟩ := hf a w1 b w' p1 h2
  refine ⟨p2, fun hq => ?_⟩
  obtain ⟨q1, e2⟩ := k2 hq
  obtain ⟨q0, e1⟩ := k1 q1
  refine ⟨q0, ?_⟩
  rcases e1 with e1 | e1
  · rw [show r = (some (.ok a) : ExpM α) from e1]
    exact e2
  · rw [show r = (some .err : ExpM α) from e1]
    exact .inr rfl

theorem same {m : Model.Run α} {r r' : Option (Res α)} (h : Traces e P Q m r) (hr : r = r') : Traces e P Q m r' := hr ▸ h

end Traces

theorem traces_mapM {α β : Type} {e : WebEnv} {P Q : World → Prop} {f : α → Model.Run β} {g : α → ExpM β} (h : ∀ a, Traces e P Q (f a) (g a))
    (l : List α) : Traces e P Q (Run.mapM f l) (ExpM.mapM g l) := by
  induction l with
  | nil => exact .pure _
  | cons a l ih => exact (h a).bind (g := fun b => (ExpM.mapM g l >>= fun bs => (some (.ok (b :: bs)) : ExpM _) : ExpM _)) fun b => ih.bind fun _ => .pure _

theorem traces_loop {e : WebEnv} {P Q : World → Prop} {f : Str → Model.Run Str} {g : Str → ExpM Str} (h : ∀ key, Traces e P Q (f key) (g key))
    (content rest : Str) (skip i : Nat) (segment : Option Nat) (new : Str) :
    Traces e P Q (expandLoopRun f content rest skip i segment new) (expandLoop expandSimpleString g content rest skip i segment new) := by
  induction rest generalizing skip i segment new with
  | nil => simp only [expandLoopRun, expandLoop]; exact .pure _
  | cons c t ih =>
    cases skip with
    | succ skip => simp only [expandLoopRun, expandLoop]; exact ih _ _ _ _
    | zero =>
      simp only [expandLoopRun, expandLoop]
      split
      · rcases findClose content (i + 2) b!"$$" b!"$$" with _ | stop
        · exact .result _
        · exact (h _).bind fun x => ih _ _ _ _
      · exact ih _ _ _ _

theorem traces_table {e : WebEnv} {P Q : World → Prop} {f : Str → Model.Run Str} {g : Str → ExpM Str} (h : ∀ s, Traces e P Q (f s) (g s))
    (rows : List (List TableCol)) (caption : Str) : Traces e P Q (expandTableRun f rows caption) (expandTable g rows caption) := by
  have hcol : ∀ col, Traces e P Q (expandColRun f col) (expandCol g col) := fun col => (h _).bind fun _ => .pure _
  have hrow : ∀ row, Traces e P Q (expandRowRun f row) (expandRow g row) := fun row => (traces_mapM hcol row).bind fun _ => .pure _
  exact (traces_mapM hrow rows).bind (g := fun rows => (g caption >>= fun caption => (some (.ok (b!"<div class=\"figure\">\n<table>\n" ++ join b!"\n" rows ++ b!"\n</table>" ++
    (b!"\n<div class=\"caption\">\n" ++ caption ++ b!"\n</div>") ++ b!"\n</div>")) : ExpM Str) : ExpM Str)) fun _ => (h caption).bind fun _ => .pure _

mutual
theorem traces_list {e : WebEnv} {P Q : World → Prop} {f : Str → Model.Run Str} {g : Str → ExpM Str} (h : ∀ s, Traces e P Q (f s) (g s)) :
    (l : ListTok) → Traces e P Q (expandListRun f l) (expandList g l)
  | .mk kind items => by
    simp only [expandListRun, expandList]
    exact (traces_items h items).bind fun _ => .pure _
theorem traces_items {e : WebEnv} {P Q : World → Prop} {f : Str → Model.Run Str} {g : Str → ExpM Str} (h : ∀ s, Traces e P Q (f s) (g s)) :
    (l : List ItemTok) → Traces e P Q (expandItemsRun f l) (expandItems g l)
  | [] => by simp only [expandItemsRun, expandItems]; exact .pure _
  | item :: rest => by
    simp only [expandItemsRun, expandItems]
    exact (traces_item h item).bind (g := fun x => (expandItems g rest >>= fun xs => (some (.ok (x :: xs)) : ExpM _) : ExpM _))
      fun _ => (traces_items h rest).bind fun _ => .pure _
theorem traces_item {e : WebEnv} {P Q : World → Prop} {f : Str → Model.Run Str} {g : Str → ExpM Str} (h : ∀ s, Traces e P Q (f s) (g s)) :
    (l : ItemTok) → Traces e P Q (expandItemRun f l) (expandItem g l)
  | .mk type content subLists => by
    simp only [expandItemRun, expandItem]
    exact (h _).bind (g := fun x => (expandSubLists g subLists >>= fun xs => (some (.ok (itemHtml type (join b!"\n" (x :: xs)))) : ExpM _) : ExpM _))
      fun _ => (traces_subLists h subLists).bind fun _ => .pure _
theorem traces_subLists {e : WebEnv} {P Q : World → Prop} {f : Str → Model.Run Str} {g : Str → ExpM Str} (h : ∀ s, Traces e P Q (f s) (g s)) :
    (l : List ListTok) → Traces e P Q (expandSubListsRun f l) (expandSubLists g l)
  | [] => by simp only [expandSubListsRun, expandSubLists]; exact .pure _
  | l :: rest => by
    simp only [expandSubListsRun, expandSubLists]
    exact (traces_list h l).bind (g := fun x => (expandSubLists g rest >>= fun xs => (some (.ok (x :: xs)) : ExpM _) : ExpM _))
      fun _ => (traces_subLists h rest).bind fun _ => .pure _
end

theorem traces_token {e : WebEnv} {P Q : World → Prop} (c : WikiConf) (decode : Str → Option SvgAttributes) (dir : Str) (html : HtmlEnv)
    (hc : html.conf = c) (hm : ∀ formula, Traces e P Q (Run.call (mathPicture decode c dir formula)) (some (html.math formula)))
    {f : Str → Model.Run Str} {g : Str → ExpM Str} (h : ∀ s, Traces e P Q (f s) (g s)) (token : Token) :
    Traces e P Q (expandTokenRun decode c dir f token) (expandToken html g token) := by
  have hi : ∀ filename, imageSource html filename = escapePathComponents (filenameToImagePath c filename) := fun filename => by
    unfold imageSource; rw [hc]
  cases token with
  | heading content depth => exact (h _).bind fun _ => .pure _
  | inlineImage filename x y => simp only [expandToken, hi]; exact .pure _
  | image filename caption x y => simp only [expandToken, hi]; exact (h _).bind fun _ => .pure _
  | externalLink url text => exact (h _).bind fun _ => .pure _
  | internalLink article text => exact h _
  | list l => exact traces_list h l
  | table rows caption => exact traces_table h rows caption
  | math content =>
    have h2 : ∀ r : Str × Str × Str × Str, Traces e P Q (Pure.pure (mathTag r)) (some (.ok (mathTag r))) := fun r => .pure _
    have := (hm content).bind (f := fun r => Pure.pure (mathTag r)) (g := fun r => (some (.ok (mathTag r)) : ExpM Str)) h2
    refine Traces.same (m := expandTokenRun decode c dir f (.math content)) this ?_
    rw [expandToken]
    rcases html.math content with r | _ | _ | _ <;> rfl
  | refDefinition index content => exact (h _).bind fun _ => .pure _
  | refUsage index => exact .pure _
  | nowiki content => exact .pure _
  | string content => exact .pure _

theorem traces_expand {e : WebEnv} {P Q : World → Prop} (c : WikiConf) (decode : Str → Option SvgAttributes) (dir : Str) (html : HtmlEnv)
    (hc : html.conf = c) (hm : ∀ formula, Traces e P Q (Run.call (mathPicture decode c dir formula)) (some (html.math formula)))
    (tokens : List (Str × Token)) (fuel : Nat) (content : Str) :
    Traces e P Q (expandStringRun decode c dir tokens fuel content) (expandString html tokens fuel content) := by
  induction fuel generalizing content with
  | zero => exact .result _
  | succ fuel ih =>
    simp only [expandStringRun, expandString]
    split
    · refine traces_loop (fun key => ?_) _ _ _ _ _ _
      unfold expandKeyRun expandKey
      rcases lookupToken tokens (b!"$$" ++ key ++ b!"$$") with _ | token
      · exact .result _
      · exact traces_token c decode _ html hc hm ih _
    · exact .pure _

theorem traces_templateStep {e : WebEnv} {P Q : World → Prop} (c : WikiConf) (t : TemplateEnv)
    (ht : ∀ text, Traces e P Q (Run.call (evaluateTemplate c text (c.sha1hex text))) (some (t.evaluate text (c.sha1hex text)))) {α : Type}
    {m : Model.Run (Str × TemplateState)} {r : Option (Res (Str × TemplateState))} (hm : Traces e P Q m r)
    (f : Str × TemplateState → Str → Model.Run α) (g : Str × TemplateState → Str → Option (Res α))
    (hf : ∀ p a, Traces e P Q (f p a) (g p a)) :
    Traces e P Q (m >>= fun p => Run.call (evaluateTemplate c (b!"{{" ++ p.1) (c.sha1hex (b!"{{" ++ p.1))) >>= fun a => f p a)
      (match (generalizing := false) r with
        | none => none
        | some (.ok (inner, st)) =>
          match t.evaluate (b!"{{" ++ inner) (c.sha1hex (b!"{{" ++ inner)) with
          | .ok a => g (inner, st) a
          | .err => some .err
          | .panic => some .panic
          | .fatal => some .fatal
        | some .err => some .err
        | some .panic => some .panic
        | some .fatal => some .fatal) := by
  have h2 := fun p : Str × TemplateState => (ht (b!"{{" ++ p.1)).bind (f := f p) (g := fun a => (g p a : ExpM α)) fun a => hf p a
  have := hm.bind (g := fun p => ((some (t.evaluate (b!"{{" ++ p.1) (c.sha1hex (b!"{{" ++ p.1))) : ExpM Str) >>= fun a => (g p a : ExpM α) : ExpM α)) h2
  refine this.same ?_
  rcases r with _ | ⟨inner, st⟩ | _ | _ | _
  · rfl
  · show ((some (t.evaluate (b!"{{" ++ inner) (c.sha1hex (b!"{{" ++ inner))) : ExpM Str) >>= fun a => (g (inner, st) a : ExpM α) : ExpM α) = _
    simp only
    rcases t.evaluate (b!"{{" ++ inner) (c.sha1hex (b!"{{" ++ inner)) with a | _ | _ | _ <;> rfl
  · rfl
  · rfl
  · rfl

theorem traces_placeholders {e : WebEnv} {P Q : World → Prop} (c : WikiConf) (t : TemplateEnv) (hh : t.hash = c.sha1hex)
    (ht : ∀ text, Traces e P Q (Run.call (evaluateTemplate c text (c.sha1hex text))) (some (t.evaluate text (c.sha1hex text))))
    (fuel : Nat) (content : Str) (i : Nat) (st : TemplateState) :
    Traces e P Q (placeholderRun c fuel content i st) (placeholderLoop t fuel content i st) := by
  induction fuel generalizing content i st with
  | zero => exact .result _
  | succ fuel ih =>
    simp only [placeholderRun, placeholderLoop]
    split
    · split
      · rcases findClose content (i + 2) b!"{{" b!"}}" with _ | endIndex
        · exact .result _
        · simp only [hh]
          have step := fun {m : Model.Run (Str × TemplateState)} {r : Option (Res (Str × TemplateState))} (hm : Traces e P Q m r) =>
            traces_templateStep c t ht hm
              (fun p a => placeholderRun c fuel (replaceFirst ((content.take (endIndex + 2)).drop i)
                (templatePlaceholder (c.sha1hex (b!"{{" ++ p.1))) content) (i + 1)
                ⟨p.2.calls ++ [(b!"{{" ++ p.1, c.sha1hex (b!"{{" ++ p.1))], setResult p.2.results (c.sha1hex (b!"{{" ++ p.1)) a⟩)
              (fun p a => placeholderLoop t fuel (replaceFirst ((content.take (endIndex + 2)).drop i)
                (templatePlaceholder (c.sha1hex (b!"{{" ++ p.1))) content) (i + 1)
                ⟨p.2.calls ++ [(b!"{{" ++ p.1, c.sha1hex (b!"{{" ++ p.1))], setResult p.2.results (c.sha1hex (b!"{{" ++ p.1)) a⟩)
              fun p a => ih _ _ _
          by_cases hb : contains (((content.take (endIndex + 2)).drop i).drop 2) b!"{{" = true
          · have := step (ih (((content.take (endIndex + 2)).drop i).drop 2) 0 st)
            simp only [if_pos hb]
            exact this
          · have := step (Traces.pure (((content.take (endIndex + 2)).drop i).drop 2, st))
            simp only [if_neg hb]
            exact this
      · exact ih _ _ _
    · exact .pure _

theorem traces_tokenize {e : WebEnv} {P Q : World → Prop} (env : ParserEnv) (c : WikiConf) (t : TemplateEnv) (hh : t.hash = c.sha1hex)
    (ht : ∀ text, Traces e P Q (Run.call (evaluateTemplate c text (c.sha1hex text))) (some (t.evaluate text (c.sha1hex text))))
    (iterate : Nat → List (Str × Str) → List (Str × Str)) (fuel : Nat) (content : Str) :
    Traces e P Q (tokenizeRun env c iterate fuel content) (tokenizeArticle env t iterate fuel content) := by
  have hp := fun content => traces_placeholders c t hh ht fuel content 0 ⟨[], []⟩
  have hev : ∀ content, Traces e P Q (evaluateTemplatesRun c iterate fuel content)
      (placeholderLoop t fuel content 0 ⟨[], []⟩ >>= fun p =>
        (resolvePlaceholders iterate p.2.results fuel 0 p.1).map .ok : ExpM Str) := fun content => (hp content).bind fun _ => .result _
  have hlast : ∀ content, Traces e P Q (Run.pureResult (cleanText env fuel content) >>= fun content =>
      Run.pureResult (tokenizeContent env fuel content TokState.initial))
      ((cleanText env fuel content : ExpM Str) >>= fun content => tokenizeContent env fuel content TokState.initial : ExpM _) :=
    fun content => (Traces.result _).bind fun _ => .result _
  have := (Traces.result (e := e) (P := P) (Q := Q) (cleanText env fuel content)).bind
    (g := fun content => ((placeholderLoop t fuel content 0 ⟨[], []⟩ >>= fun p =>
        (resolvePlaceholders iterate p.2.results fuel 0 p.1).map .ok : ExpM Str) >>= fun content => (cleanText env fuel content : ExpM Str) >>= fun content =>
      tokenizeContent env fuel content TokState.initial : ExpM _))
    fun content => (hev content).bind hlast
  refine Traces.same (m := tokenizeRun env c iterate fuel content) this ?_
  unfold tokenizeArticle evaluateTemplates
  rcases cleanText env fuel content with _ | content | _ | _ | _
  · rfl
  · simp only
    show ((placeholderLoop t fuel content 0 ⟨[], []⟩ >>= fun p =>
        (resolvePlaceholders iterate p.2.results fuel 0 p.1).map .ok : ExpM Str) >>= fun content => (cleanText env fuel content : ExpM Str) >>= fun content =>
      tokenizeContent env fuel content TokState.initial : ExpM _) = _
    rcases placeholderLoop t fuel content 0 ⟨[], []⟩ with _ | ⟨content, st⟩ | _ | _ | _
    · rfl
    · simp only
      show (((resolvePlaceholders iterate st.results fuel 0 content).map .ok : ExpM Str) >>= fun content => (cleanText env fuel content : ExpM Str) >>= fun content =>
        tokenizeContent env fuel content TokState.initial : ExpM _) = _
      rcases resolvePlaceholders iterate st.results fuel 0 content with _ | content
      · rfl
      · simp only [Option.map_some]
        show ((cleanText env fuel content : ExpM Str) >>= fun content => tokenizeContent env fuel content TokState.initial : ExpM _) = _
        rcases cleanText env fuel content with _ | content | _ | _ | _ <;> rfl
    · rfl
    · rfl
    · rfl
  · rfl
  · rfl
  · rfl

/-! ### The page -/

/-- The given answers for the templates of a text, no answers for other templates. -/
def givenAnswers (c : WikiConf) (text : NestedText) (answer : Str → Str) : TemplateEnv where
  hash := c.sha1hex
  evaluate t _ := if t ∈ text.templates.map (fun t => t.request c.sha1hex) then .ok (answer t) else .err

/-- A run that has made a page: if the given text and answers are the only ones it can have used, the page is the one of these. -/
theorem run_any (env : ParserEnv) (c : WikiConf) (hs : SumsUsable c) (decode : Str → Option SvgAttributes) (t : TemplateEnv) (hh : t.hash = c.sha1hex)
    (iterate : Nat → List (Str × Str) → List (Str × Str)) (fuel : Nat) (style article : Str) (e : WebEnv) (hu : AnyCache e) (w w' : World)
    (hwf : w.fs.WF) (page : Str) (hrun : articleRun env c decode e.cache.cacheDir iterate fuel style article e w = some (.ok page, w')) :
    ∃ text s w2 bytes title content, parseRun env c iterate fuel article e w = some (.ok (text, s), w2) ∧
      Given e w w2 b!"articles" (underscores article ++ b!".json") (articleUrl (c.wikiInstance ++ b!"." ++ c.host) article) bytes ∧
      c.decodeArticle bytes = some (title, content) ∧
      ((∀ request, t.evaluate request (c.sha1hex request) = .err ∨ ∀ request' b, c.sha1hex request' = c.sha1hex request →
        Given e w w2 b!"templates" (c.sha1hex request) (templateUrl c request') b →
        ∃ x, c.decodeTemplate b = some x ∧ t.evaluate request (c.sha1hex request) = .ok x) →
      articleHtml env t iterate ⟨c, fun _ => .err⟩ fuel style article content = some (.ok page) ∨
      articleHtml env t iterate ⟨c, fun _ => .err⟩ fuel style article content = some .err) := by
  obtain ⟨dto, w1, g1, hrun⟩ := run_bind_inv hrun
  obtain ⟨⟨text, s⟩, w2, g2, hrun⟩ := run_bind_inv hrun
  obtain ⟨u, w3, g3, hrun⟩ := run_bind_inv hrun
  obtain ⟨body, w4, g4, hrun⟩ := run_bind_inv hrun
  cases hrun
  have hparse : parseRun env c iterate fuel article e w = some (.ok (text, s), w2) := by
    rw [parseRun, run_bind_ok g1]
    exact g2
  have g1' : downloadArticle c (c.wikiInstance ++ b!"." ++ c.host) article e w = (.ok dto, w1) := Option.some.inj g1
  obtain ⟨a1, told1, ht, bytes, hd, hart⟩ := article_any hu c hwf g1'
  have told2 : Talks w1 w2 := by
    have hk : ∀ request, Traces e (fun w => w.fs.WF ∧ Talks w1 w) (fun _ => True) (Run.call (evaluateTemplate c request (c.sha1hex request)))
        (some ((⟨c.sha1hex, fun _ _ => .err⟩ : TemplateEnv).evaluate request (c.sha1hex request))) := by
      rintro request v x v' ⟨hv, hv1⟩ h
      obtain ⟨k1, k2, -⟩ := template_any hu c hs hv (Option.some.inj h)
      exact ⟨⟨k1, hv1.trans k2.1⟩, fun _ => ⟨trivial, .inr rfl⟩⟩
    exact (traces_tokenize (Q := fun _ => True) env c ⟨c.sha1hex, fun _ _ => .err⟩ rfl hk iterate fuel dto.content w1 _ w2 ⟨a1, .refl _⟩ g2).1.2
  refine ⟨text, s, w2, bytes, dto.title, dto.content, hparse, ?_, hd, fun hans => ?_⟩
  · rcases hart with h | h
    · exact .inl h
    · exact .inr (sent_later h told1.1 told2)
  · have hk : ∀ request, Traces e (fun v => v.fs.WF ∧ Told c e w v) (fun v => Talks v w2) (Run.call (evaluateTemplate c request (c.sha1hex request)))
        (some (t.evaluate request (c.sha1hex request))) := by
      rintro request v x v' ⟨hv, hv1⟩ h
      obtain ⟨k1, k2, b, k3, k4⟩ := template_any hu c hs hv (Option.some.inj h)
      refine ⟨⟨k1, hv1.trans k2⟩, fun hq => ⟨k2.1.trans hq, ?_⟩⟩
      rcases hans request with h1 | h1
      · exact .inr (congrArg some h1)
      have : ∃ request', c.sha1hex request' = c.sha1hex request ∧ Given e w w2 b!"templates" (c.sha1hex request) (templateUrl c request') b := by
        rcases k4 with k4 | k4
        · rcases hv1.2 _ (hs.sha1 _) b k4 with k5 | ⟨request', k5, k6⟩
          · exact ⟨request, rfl, .inl k5⟩
          · exact ⟨request', k5, .inr (sent_later k6 hv1.1 (k2.1.trans hq))⟩
        · exact ⟨request, rfl, .inr (sent_earlier hv1.1 (sent_later k4 k2.1 hq))⟩
      obtain ⟨request', k5, k6⟩ := this
      obtain ⟨y, k7, k8⟩ := h1 request' b k5 k6
      rw [k3] at k7
      cases k7
      exact .inl (congrArg some k8)
    have htok := ((traces_tokenize env c t hh hk iterate fuel dto.content w1 _ w2 ⟨a1, told1⟩ g2).2 (.refl _)).2
    have hm : ∀ formula, Traces e (fun _ => True) (fun _ => True) (Run.call (mathPicture decode c e.cache.cacheDir formula))
        (some ((⟨c, fun _ => .err⟩ : HtmlEnv).math formula)) := fun formula _ _ _ _ _ => ⟨trivial, fun _ => ⟨trivial, .inr rfl⟩⟩
    have hexp := ((traces_expand (Q := fun _ => True) c decode e.cache.cacheDir ⟨c, fun _ => .err⟩ rfl hm s.tokenMap fuel text w3 _ w' trivial g4).2 trivial).2
    unfold articleHtml
    rcases htok with htok | htok
    · rw [htok]
      show (expandString ⟨c, fun _ => .err⟩ s.tokenMap fuel text >>= fun body =>
        (some (.ok (htmlHeader style ++ b!"\n<h1>" ++ article ++ b!"</h1>\n" ++ body ++ htmlFooter)) : ExpM Str) : ExpM Str) = _ ∨
        (expandString ⟨c, fun _ => .err⟩ s.tokenMap fuel text >>= fun body =>
        (some (.ok (htmlHeader style ++ b!"\n<h1>" ++ article ++ b!"</h1>\n" ++ body ++ htmlFooter)) : ExpM Str) : ExpM Str) = _
      rcases hexp with hexp | hexp
      · left
        rw [show expandString ⟨c, fun _ => .err⟩ s.tokenMap fuel text = (some (.ok body) : ExpM Str) from hexp, ← ht]
        rfl
      · right
        rw [show expandString ⟨c, fun _ => .err⟩ s.tokenMap fuel text = (some .err : ExpM Str) from hexp]
        rfl
    · right
      rw [htok]

/-- **C78** (partly): whatever the eviction strategy, the size of the cache, the ages of files and the failures of file operations are:
whenever the program has made a page, then this page is the HTML of the article, with the requested title as heading and each template
replaced by its answer. Here the article and each answer is what was in the cache before the run or what the wiki has sent in this run
for the article and for the template (or for one with the same SHA-1 sum). Missing: articles with formulas (for these see the theorem
above) and articles beyond the texts of C69. -/
theorem C78_page_is_made_from_what_was_given_with_any_cache_partial (env : ParserEnv) (hp : PlainPrefixes env) (c : WikiConf) (hs : SumsUsable c)
    (hhex : ∀ t, ∀ b ∈ c.sha1hex t, b ∈ b!"0123456789abcdef") (hda : c.decodeArticle = unmarshalArticle) (hdt : c.decodeTemplate = unmarshalTemplate)
    (decode : Str → Option SvgAttributes)
    (iterate : Nat → List (Str × Str) → List (Str × Str)) (hit : ∀ n m, (iterate n m).Perm m) (style article : Str)
    (e : WebEnv) (hu : AnyCache e) (w : World) (hwf : w.fs.WF)
    -- the article
    (parts : List SourcePart) (d : TemplateText) (written all lines : List Str) (ha : CleanedArticle env parts d written all lines)
    -- its templates
    (text : NestedText) (htext : text.text = join b!"\n" lines) (hw : text.WellFormed [])
    (hinj : ∀ t ∈ text.templates, ∀ t' ∈ text.templates,
      c.sha1hex (t.request c.sha1hex) = c.sha1hex (t'.request c.sha1hex) → t.request c.sha1hex = t'.request c.sha1hex)
    -- the article with the answers, without formulas
    (answer : Str → Str) (parts' : List SourcePart)
    (hx : Resolved (text.templates.map fun t => (c.sha1hex (t.request c.sha1hex), answer (t.request c.sha1hex)))
      (text.holed c.sha1hex) (sourceText parts'))
    (hc : ¬ b!"TEMPLATE_PLACEHOLDER_" <:+: sourceText parts')
    (hw' : ∀ p ∈ parts', p.WellFormed (linkRules env) fun name => IsIgnored env name = true ∧ IsTrailing env name = false)
    (hpl : WellPlaced parts') (doc : List (Nat × DocBlock)) (h : DocOk env doc) (hm : ∀ b ∈ doc, b.2.AllLines (Rendered ⟨c, fun _ => .err⟩))
    (all' : List Str) (ha' : WithEmptySections (HeadingOfArticle env) (documentSource doc) all')
    (written' : List Str) (hl : WrittenLines all' written') (hk : keptText parts' = join b!"\n" written')
    -- the run
    (fuel : Nat) (page : Str) (w' : World)
    (hrun : articleRun env c decode e.cache.cacheDir iterate fuel style article e w = some (.ok page, w'))
    (hgiven : ∀ content s w1, parseRun env c iterate fuel article e w = some (.ok (content, s), w1) →
      (∀ bytes, Given e w w1 b!"articles" (underscores article ++ b!".json") (articleUrl (c.wikiInstance ++ b!"." ++ c.host) article) bytes →
        ∃ name json, JsonText json bytes ∧ nesting json ≤ 10000 ∧ ArticleAnswer name (sourceText parts) json) ∧
      ∀ t ∈ text.templates, ∀ t', c.sha1hex t' = c.sha1hex (t.request c.sha1hex) →
        ∀ bytes, Given e w w1 b!"templates" (c.sha1hex (t.request c.sha1hex)) (templateUrl c t') bytes →
          ∃ json, JsonText json bytes ∧ nesting json ≤ 10000 ∧ TemplateAnswer (answer (t.request c.sha1hex)) json) :
    page = htmlHeader style ++ b!"\n<h1>" ++ article ++ b!"</h1>\n" ++
      join b!"\n" (documentHtml ⟨ArticleImage.html env (imageSource ⟨c, fun _ => .err⟩), formulaPicture ⟨c, fun _ => .err⟩⟩ false doc) ++
        htmlFooter := by
  obtain ⟨content0, s, w2, bytes, title, content, g0, g1, g2, g3⟩ := run_any env c hs decode (givenAnswers c text answer) rfl iterate fuel style article
    e hu w w' hwf page hrun
  obtain ⟨k1, k2⟩ := hgiven _ _ _ g0
  obtain ⟨name, json, j1, j2, j3⟩ := k1 bytes g1
  rw [hda, unmarshalArticle_answer j1 j2 j3] at g2
  cases g2
  have hev : ∀ t ∈ text.templates, (givenAnswers c text answer).evaluate (t.request c.sha1hex) (c.sha1hex (t.request c.sha1hex)) =
      .ok (answer (t.request c.sha1hex)) := fun t ht => if_pos (List.mem_map.mpr ⟨t, ht, rfl⟩)
  have g4 := g3 (fun request => by
    by_cases hr : request ∈ text.templates.map (fun t => t.request c.sha1hex)
    · obtain ⟨t, ht, rfl⟩ := List.mem_map.mp hr
      refine .inr fun request' b h1 h2 => ?_
      obtain ⟨j, b2, b3, b4⟩ := k2 t ht request' h1 b h2
      exact ⟨_, by rw [hdt]; exact unmarshalTemplate_answer b2 b3 b4, hev t ht⟩
    · exact .inl (if_neg hr))
  obtain ⟨steps, hsteps⟩ := C69_templates_become_their_answers_partial env hp (givenAnswers c text answer) hhex iterate hit ⟨c, fun _ => .err⟩ style article
    parts d written all lines ha text htext hw hinj answer hev parts' hx hc hw' hpl doc h hm all' ha' written' hl hk
  have h1 := hsteps (fuel + steps) (by omega)
  rcases g4 with g4 | g4
  · rw [(later_articleHtml env _ iterate _ fuel (fuel + steps) (by omega) _ _ _).eq_some g4] at h1
    exact Res.ok.inj (Option.some.inj h1)
  · rw [(later_articleHtml env _ iterate _ fuel (fuel + steps) (by omega) _ _ _).eq_some g4] at h1
    cases h1

/-! ### Examples -/

/-- A cache of 120 bytes with the strategy `lru`, and a file operation that fails. -/
def tightEnv : WebEnv := { demoWebBig ⟨true, none⟩ with cache := ⟨b!"/c", 120, 60, .lru, id⟩, faults := fun k => k = 67 }

theorem tightEnv_usable : AnyCache tightEnv where
  dir := by decide
  walk := fun _ => List.Perm.refl _
  digits _ := ⟨show b!"123" ≠ [] by decide, show ∀ c ∈ b!"123", 48 ≤ c ∧ c ≤ 57 by decide⟩

def tightRun : Option (Outcome Str × World) :=
  articleRun exampleEnv walkConf demoDecode b!"/c" (fun _ l => l) 100 b!"s.css" b!"A b" tightEnv walkWorld

/-- The file of the article has been evicted when the run ends. -/
theorem tightRun_result : tightRun.map (fun r => (r.1, r.2.fs.map Prod.fst)) = some (.ok walkPage, [b!"/c/templates/cd"]) := by decide +kernel

def tightParse : Option (Outcome (Str × TokState) × World) :=
  parseRun exampleEnv walkConf (fun _ l => l) 100 b!"A b" tightEnv walkWorld

theorem tightParse_events : tightParse.map (fun r => r.2.events) = some [
    .request b!"GET" (articleUrl b!"de.wikipedia.org" b!"A b") [], .request b!"GET" (templateUrl walkConf b!"{{n}}") []] := by decide +kernel

theorem tight_sent {content : Str} {s : TokState} {w1 : World} (h : tightParse = some (.ok (content, s), w1)) {url bytes : Str}
    (hs : Sent walkWorld w1 url bytes) :
    url = articleUrl b!"de.wikipedia.org" b!"A b" ∧ bytes = walkText ∨ url = templateUrl walkConf b!"{{n}}" ∧ bytes = walkTemplateText := by
  obtain ⟨new, r, e1, e2, -, -, rfl⟩ := hs
  have h2 := tightParse_events
  rw [h, Option.map_some, Option.some.injEq, e1] at h2
  have h3 : new = [.request b!"GET" (articleUrl b!"de.wikipedia.org" b!"A b") [], .request b!"GET" (templateUrl walkConf b!"{{n}}") []] := h2
  rw [h3] at e2
  simp only [exchanges, walkWorld, List.mem_cons, List.not_mem_nil, or_false, Prod.mk.injEq, Event.request.injEq, answer, Answer.response.injEq] at e2
  rcases e2 with ⟨⟨-, h1, -⟩, rfl⟩ | ⟨⟨-, h1, -⟩, rfl⟩
  · exact .inl ⟨h1, rfl⟩
  · exact .inr ⟨h1, rfl⟩

attribute [local irreducible] tightParse in
/-- All hypotheses are met by a run with two requests, an eviction and a failure: it shows that the page of this run is `walkPage`. -/
example : (∃ page w', tightRun = some (.ok page, w')) ∧ ∀ page w', tightRun = some (.ok page, w') → page = walkPage := by
  refine ⟨?_, fun page w' h => ?_⟩
  · have h := tightRun_result
    generalize tightRun = r at h
    match r, h with
    | some (o, w), h =>
      simp only [Option.map_some, Option.some.injEq, Prod.mk.injEq] at h
      exact ⟨_, w, by rw [h.1]⟩
  have hempty : ∀ folder name, cachedBytes tightEnv.cache.cacheDir walkWorld.fs folder name = none := fun _ _ => rfl
  refine (C78_page_is_made_from_what_was_given_with_any_cache_partial exampleEnv exampleEnv_plain walkConf walk_sums
    (fun _ => show ∀ b ∈ b!"cd", _ by decide) rfl rfl demoDecode (fun _ l => l) (fun _ _ => List.Perm.refl _) b!"s.css" b!"A b" tightEnv
    tightEnv_usable walkWorld (by simp [FS.WF, walkWorld]) [.shown b!"Walk {{n}} km."] walkSource
    walkLines walkLines walkLines walk_cleaned walkNested (by decide +kernel) walkNested_ok walk_one (fun _ => b!"3") [.shown b!"Walk 3 km."] walk_resolved
    (by decide +kernel) (by simp [SourcePart.WellFormed]) (placed_of_test (by decide +kernel)) walkDoc walkDoc_ok (walkDoc_rendered _) (documentSource walkDoc)
    (withEmptySections_refl _ _) [b!"Walk 3 km."] walk_written walk_kept 100 page w' h ?_).trans rfl
  intro content s w1 h1
  have hp : tightParse = some (.ok (content, s), w1) := by
    unfold tightParse
    exact h1
  refine ⟨fun bytes hg => ?_, fun t _ t' _ bytes hg => ?_⟩
  · rcases hg with hg | hg
    · rw [hempty] at hg; cases hg
    · rcases tight_sent hp hg with ⟨-, rfl⟩ | ⟨h2, -⟩
      · exact ⟨_, _, walk_json, by decide, walk_answer⟩
      · exact absurd h2.symm (walk_urls _)
  · rcases hg with hg | hg
    · rw [hempty] at hg; cases hg
    · rcases tight_sent hp hg with ⟨h2, -⟩ | ⟨-, rfl⟩
      · exact absurd h2 (walk_urls _)
      · exact ⟨_, walk_template_json, by decide, walk_template_answer⟩

end Verif.Props
