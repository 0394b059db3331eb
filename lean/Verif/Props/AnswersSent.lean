import Verif.Props.AnswerToPage
import Verif.Spec.Exchange

/-!
# From what the wiki has sent to the page (C78)
-/

namespace Verif.Props
open Verif.Go Verif.Model Verif.Spec Verif.Lemmas FSl
open scoped List

/-! ### Requests and answers -/

/-- Number of requests. -/
def requestCount : List Event → Nat
  | [] => 0
  | .request _ _ _ :: events => requestCount events + 1
  | _ :: events => requestCount events

theorem requestCount_append (a b : List Event) : requestCount (a ++ b) = requestCount a + requestCount b := by
  induction a with
  | nil => simp [requestCount]
  | cons x a ih => cases x <;> simp only [List.cons_append, requestCount, ih] <;> omega

theorem exchanges_append (a b : List Event) (s t : List Answer) (h : requestCount a = s.length) :
    exchanges (a ++ b) (s ++ t) = exchanges a s ++ exchanges b t := by
  induction a generalizing s with
  | nil =>
    cases s with
    | nil => simp [exchanges]
    | cons x s => simp [requestCount] at h
  | cons x a ih =>
    cases x with
    | request m u body =>
      cases s with
      | nil => simp [requestCount] at h
      | cons y s =>
        simp only [requestCount, List.length_cons] at h
        simp only [List.cons_append, exchanges, ih s (by omega)]
    | sleep n => simp only [List.cons_append, exchanges, ih s (by simpa [requestCount] using h)]
    | command args d => simp only [List.cons_append, exchanges, ih s (by simpa [requestCount] using h)]

/-- Between `w` and `w'` each request has got its answer. -/
def Talks (w w' : World) : Prop :=
  ∃ new used, w'.events = w.events ++ new ∧ w.script = used ++ w'.script ∧ requestCount new = used.length

theorem Talks.refl (w : World) : Talks w w := ⟨[], [], by simp, by simp, rfl⟩

theorem Talks.of_same {w w' : World} (h1 : w'.events = w.events) (h2 : w'.script = w.script) : Talks w w' :=
  ⟨[], [], by simp [h1], by simp [h2], rfl⟩

theorem Talks.trans {w w1 w2 : World} (h : Talks w w1) (h' : Talks w1 w2) : Talks w w2 := by
  obtain ⟨n1, u1, a1, a2, a3⟩ := h
  obtain ⟨n2, u2, b1, b2, b3⟩ := h'
  exact ⟨n1 ++ n2, u1 ++ u2, by rw [b1, a1, List.append_assoc], by rw [a2, b2, List.append_assoc],
    by rw [requestCount_append, a3, b3, List.length_append]⟩

theorem sent_later {w w1 w2 : World} {url bytes : Str} (h : Sent w w1 url bytes) (h1 : Talks w w1) (h2 : Talks w1 w2) :
    Sent w w2 url bytes := by
  obtain ⟨new, r, e1, e2, e3⟩ := h
  obtain ⟨n1, u1, a1, a2, a3⟩ := h1
  obtain ⟨n2, u2, b1, b2, b3⟩ := h2
  have : n1 = new := List.append_cancel_left (a1.symm.trans e1)
  subst this
  refine ⟨n1 ++ n2, r, by rw [b1, a1, List.append_assoc], ?_, e3⟩
  rw [a2, exchanges_append _ _ _ _ a3]
  have hx := exchanges_append n1 [] u1 w1.script a3
  rw [List.append_nil, ← a2] at hx
  rw [hx] at e2
  simp only [exchanges, List.append_nil] at e2
  exact List.mem_append_left _ e2

theorem sent_earlier {w w1 w2 : World} {url bytes : Str} (h1 : Talks w w1) (h : Sent w1 w2 url bytes) : Sent w w2 url bytes := by
  obtain ⟨new, r, e1, e2, e3⟩ := h
  obtain ⟨n1, u1, a1, a2, a3⟩ := h1
  refine ⟨n1 ++ new, r, by rw [e1, a1, List.append_assoc], ?_, e3⟩
  rw [a2, exchanges_append _ _ _ _ a3]
  exact List.mem_append_right _ e2

/-- A successful request: the last of its answers is the result. -/
theorem requestLoop_sent (url : Str) (script : List Answer) {events : List Event} {r : Response} {rest : List Answer}
    (h : requestLoop b!"GET" url [] script = (events, .ok r, rest)) :
    r.status = 200 ∧ r.apiError = [] ∧ ∃ used, script = used ++ rest ∧ requestCount events = used.length ∧
      (Event.request b!"GET" url [], Answer.response r) ∈ exchanges events used := by
  induction script generalizing events with
  | nil => simp [requestLoop] at h
  | cons a script ih =>
    cases a with
    | failed => simp [requestLoop] at h
    | response q =>
      unfold requestLoop at h
      split at h
      · generalize hr : requestLoop b!"GET" url [] script = x at h
        obtain ⟨ev, out, rest'⟩ := x
        simp only [Prod.mk.injEq] at h
        obtain ⟨rfl, rfl, rfl⟩ := h
        obtain ⟨h1, h2, used, h3, h4, h5⟩ := ih hr
        exact ⟨h1, h2, .response q :: used, by simp [h3], by simp [requestCount, h4], List.mem_cons_of_mem _ h5⟩
      · rename_i hs
        split at h
        · simp at h
        · rename_i h2
          split at h
          · simp at h
          · rename_i h3
            simp only [Prod.mk.injEq, Outcome.ok.injEq] at h
            obtain ⟨rfl, rfl, rfl⟩ := h
            exact ⟨by simpa using h2, by simpa using h3, [.response q], rfl, rfl, by simp [exchanges]⟩

theorem doRequest_sent {e : WebEnv} {w w' : World} {url : Str} {r : Response} (h : doRequest b!"GET" url [] e w = (.ok r, w')) :
    Talks w w' ∧ Sent w w' url r.body.bytes ∧ w'.fs = w.fs ∧ w'.ops = w.ops := by
  unfold doRequest at h
  generalize hr : requestLoop b!"GET" url [] w.script = x at h
  obtain ⟨ev, out, rest⟩ := x
  simp only [Prod.mk.injEq] at h
  obtain ⟨rfl, rfl⟩ := h
  obtain ⟨h1, h2, used, h3, h4, h5⟩ := requestLoop_sent url w.script hr
  refine ⟨⟨ev, used, rfl, h3, h4⟩, ⟨ev, r, rfl, ?_, h1, h2, rfl⟩, rfl, rfl⟩
  have hx := exchanges_append ev [] used rest h4
  rw [List.append_nil, ← h3] at hx
  rw [hx]
  exact List.mem_append_left _ h5

/-! ### Files -/

theorem download_sent {e : WebEnv} (hu : FirstRun e) {folder name : Str} (hf : folder ∈ runFolders) (hn : name ∉ [b!"", b!".", b!".."])
    {url : Str} {w w' : World} {r : Str × Bool} (hw : Fine e w.fs) (h : downloadAndCache url folder name e w = (.ok r, w')) :
    Talks w w' ∧ ∀ folder' ∈ runFolders, ∀ name', name' ∉ [b!"", b!".", b!".."] → ∀ b,
      cachedBytes e.cache.cacheDir w'.fs folder' name' = some b →
      cachedBytes e.cache.cacheDir w.fs folder' name' = some b ∨ (folder' = folder ∧ name' = name ∧ Sent w w' url b) := by
  have hv := hu.key hf hn
  obtain ⟨hit, h1, h2, -, h4⟩ := lookup_fine hu hf hn w hw
  have hrun : (Web.files fun env now _ => getFile env folder name now) e w =
      (.ok (getFilePathInCache e.cache.cacheDir folder name, hit), { w with
        fs := (getFile e.cache folder name (e.clock w.ops) noFaults w.ops w.fs).fs,
        ops := (getFile e.cache folder name (e.clock w.ops) noFaults w.ops w.fs).step }) := by
    unfold Web.files
    simp only [hu.faults, h1]
    rfl
  obtain ⟨⟨p, hit'⟩, w1, g1, h⟩ := web_bind_inv h
  rw [hrun] at g1
  simp only [Prod.mk.injEq, Outcome.ok.injEq] at g1
  obtain ⟨⟨-, rfl⟩, g1⟩ := g1
  have t1 : Talks w w1 := by rw [← g1]; exact .of_same rfl rfl
  have hget : ∀ q, w1.fs.get q = w.fs.get q := by intro q; rw [← g1]; exact h2 q
  have hwf1 : w1.fs.WF := by rw [← g1]; exact h4
  have hbytes : ∀ folder' name', cachedBytes e.cache.cacheDir w1.fs folder' name' = cachedBytes e.cache.cacheDir w.fs folder' name' :=
    fun folder' name' => by unfold cachedBytes; rw [hget]
  cases hit with
  | true =>
    cases h
    exact ⟨t1, fun folder' _ name' _ b hb => .inl (by rw [← hbytes]; exact hb)⟩
  | false =>
    obtain ⟨body, w2, g2, h⟩ := web_bind_inv (show (downloadMissing url folder name) e w1 = _ from h)
    obtain ⟨resp, w3, g3, g2⟩ := web_bind_inv g2
    cases g2
    obtain ⟨path, w4, g4, h⟩ := web_bind_inv h
    cases h
    obtain ⟨t2, s2, f2, o2⟩ := doRequest_sent g3
    unfold Web.files at g4
    simp only [Prod.mk.injEq] at g4
    obtain ⟨g4, g5⟩ := g4
    have t3 : Talks w2 w' := by rw [← g5]; exact .of_same rfl rfl
    refine ⟨(t1.trans t2).trans t3, fun folder' hf' name' hn' b hb => ?_⟩
    have hres : (cacheToFile e.cache folder name resp.body (e.rnd w2.ops) (e.clock w2.ops) e.faults w2.ops w2.fs).res = .ok path := by
      generalize (cacheToFile e.cache folder name resp.body (e.rnd w2.ops) (e.clock w2.ops) e.faults w2.ops w2.fs).res = x at g4
      cases x <;> cases g4
      rfl
    have hwf2 : w2.fs.WF := by rw [f2]; exact hwf1
    have hfs : w'.fs = (cacheToFile e.cache folder name resp.body (e.rnd w2.ops) (e.clock w2.ops) e.faults w2.ops w2.fs).fs := by
      rw [← g5]
    by_cases heq : getFilePathInCache e.cache.cacheDir folder' name' = getFilePathInCache e.cache.cacheDir folder name
    · obtain ⟨rfl, rfl⟩ := C09_entry_paths_injective _ _ _ _ _ (folder_plain hf').1 (folder_plain hf).1 hn' hn heq
      obtain ⟨c1, -, c3, -⟩ := C01_write_success _ _ _ _ _ _ _ _ _ hu.walk hv (hu.digits _) hwf2 _ hres
      subst c1
      unfold cachedBytes at hb
      rw [hfs, c3] at hb
      cases hb
      exact .inr ⟨rfl, rfl, sent_earlier t1 (sent_later s2 t2 t3)⟩
    · left
      have hother := C06_no_strategy_no_loss e.cache folder name resp.body (e.rnd w2.ops) (e.clock w2.ops) e.faults w2.ops w2.fs hu.walk hv
        (hu.digits _) hwf2 hu.strategy _ (List.mem_append_right _ (List.mem_singleton_self _)) _
        (temp_ne_out (filename' := name) (hu.key hf' hn') (hu.digits _)).symm heq
      unfold cachedBytes at hb ⊢
      rw [hfs, hother, f2, hget] at hb
      exact hb

/-- Every answer for a template that is in the cache at `w'` was there at `w` or has been sent since then. -/
def Told (c : WikiConf) (e : WebEnv) (w w' : World) : Prop :=
  Talks w w' ∧ ∀ key, key ∉ [b!"", b!".", b!".."] → ∀ b, cachedBytes e.cache.cacheDir w'.fs templateFolder key = some b →
    cachedBytes e.cache.cacheDir w.fs templateFolder key = some b ∨ ∃ t, c.sha1hex t = key ∧ Sent w w' (templateUrl c t) b

theorem Told.refl (c : WikiConf) (e : WebEnv) (w : World) : Told c e w w := ⟨.refl w, fun _ _ _ h => .inl h⟩

theorem Told.trans {c : WikiConf} {e : WebEnv} {w w1 w2 : World} (h : Told c e w w1) (h' : Told c e w1 w2) : Told c e w w2 := by
  refine ⟨h.1.trans h'.1, fun key hk b hb => ?_⟩
  rcases h'.2 key hk b hb with hb | ⟨t, ht, hs⟩
  · rcases h.2 key hk b hb with hb | ⟨t, ht, hs⟩
    · exact .inl hb
    · exact .inr ⟨t, ht, sent_later hs h.1 h'.1⟩
  · exact .inr ⟨t, ht, sent_earlier h.1 hs⟩

theorem readBytes_same {e : WebEnv} {path : Str} {w w' : World} {b : Str} (h : readBytes path e w = (.ok b, w')) :
    w'.fs = w.fs ∧ w'.events = w.events ∧ w'.script = w.script := by
  have hk : (readBytes path e w).2.fs = w.fs := by
    show (FsM.readFile path e.faults w.ops w.fs).fs = w.fs
    unfold FsM.readFile FsM.prim
    split
    · rfl
    · split
      · rename_i h
        simp only at h
        split at h <;> (cases h; rfl)
  rw [h] at hk
  refine ⟨hk, ?_, ?_⟩
  · have := congrArg (fun x => x.2.events) h
    exact this.symm
  · have := congrArg (fun x => x.2.script) h
    exact this.symm

theorem article_told {e : WebEnv} (hu : FirstRun e) (c : WikiConf) {host title : Str} {w w' : World} {dto : ArticleDto} (hw : Fine e w.fs)
    (h : downloadArticle c host title e w = (.ok dto, w')) :
    Told c e w w' ∧ ∀ b, cachedBytes e.cache.cacheDir w'.fs articleFolder (articleFile title) = some b →
      cachedBytes e.cache.cacheDir w.fs articleFolder (articleFile title) = some b ∨ Sent w w' (articleUrl host title) b := by
  obtain ⟨⟨path, fresh⟩, w1, g1, h⟩ := web_bind_inv h
  obtain ⟨bytes, w2, g2, h⟩ := web_bind_inv h
  obtain ⟨⟨t, text⟩, w3, g3, h⟩ := web_bind_inv h
  cases h
  have e3 : w' = w2 := by
    generalize c.decodeArticle bytes = x at g3
    cases x <;> cases g3
    rfl
  subst e3
  obtain ⟨f2, v2, s2⟩ := readBytes_same g2
  obtain ⟨t1, k1⟩ := download_sent hu (by simp [runFolders]) (article_name_ok title) hw g1
  have t2 : Talks w1 w' := .of_same v2 s2
  rw [← f2] at k1
  refine ⟨⟨t1.trans t2, fun key hk b hb => ?_⟩, fun b hb => ?_⟩
  · rcases k1 templateFolder (by simp [runFolders]) key hk b hb with h | ⟨h, -⟩
    · exact .inl h
    · exact absurd h (by decide)
  · rcases k1 articleFolder (by simp [runFolders]) _ (article_name_ok title) b hb with h | ⟨-, -, h⟩
    · exact .inl h
    · exact .inr (sent_later h t1 t2)

theorem template_told {e : WebEnv} (hu : FirstRun e) (c : WikiConf) (hs : SumsUsable c) {t text : Str} {w w' : World} (hw : Fine e w.fs)
    (h : evaluateTemplate c t (c.sha1hex t) e w = (.ok text, w')) : Told c e w w' := by
  obtain ⟨⟨path, fresh⟩, w1, g1, h⟩ := web_bind_inv h
  obtain ⟨bytes, w2, g2, h⟩ := web_bind_inv h
  have e3 : w' = w2 := by
    generalize c.decodeTemplate bytes = x at h
    cases x <;> cases h
    rfl
  subst e3
  obtain ⟨f2, v2, s2⟩ := readBytes_same g2
  obtain ⟨t1, k1⟩ := download_sent hu (by simp [runFolders]) (hs.sha1 t) hw g1
  have t2 : Talks w1 w' := .of_same v2 s2
  rw [← f2] at k1
  refine ⟨t1.trans t2, fun key hk b hb => ?_⟩
  rcases k1 templateFolder (by simp [runFolders]) key hk b hb with h | ⟨-, h, h'⟩
  · exact .inl h
  · exact .inr ⟨t, h.symm, sent_later h' t1 t2⟩

/-- A part of the run during which templates come only from the wiki. -/
def RunTells (c : WikiConf) (e : WebEnv) {α : Type} (m : Model.Run α) : Prop :=
  ∀ w a w', Fine e w.fs → m e w = some (.ok a, w') → Fine e w'.fs ∧ Told c e w w'

theorem RunTells.bind {c : WikiConf} {e : WebEnv} {α β : Type} {m : Model.Run α} {f : α → Model.Run β} (hm : RunTells c e m)
    (hf : ∀ a, RunTells c e (f a)) : RunTells c e (m >>= f) := by
  intro w b w' hw h
  obtain ⟨a, w1, h1, h2⟩ := run_bind_inv h
  obtain ⟨f1, t1⟩ := hm w a w1 hw h1
  obtain ⟨f2, t2⟩ := hf a w1 b w' f1 h2
  exact ⟨f2, t1.trans t2⟩

theorem RunTells.pure {c : WikiConf} {e : WebEnv} {α : Type} (a : α) : RunTells c e (Pure.pure a : Model.Run α) := by
  intro w b w' hw h
  cases h
  exact ⟨hw, .refl _ _ _⟩

theorem RunTells.result {c : WikiConf} {e : WebEnv} {α : Type} (r : Option (Res α)) : RunTells c e (Run.pureResult r) := by
  intro w b w' hw h
  rcases r with _ | a | _ | _ | _ <;> cases h
  exact ⟨hw, .refl _ _ _⟩

theorem RunTells.template {c : WikiConf} {e : WebEnv} (hu : FirstRun e) (hs : SumsUsable c) (t : Str) :
    RunTells c e (Run.call (evaluateTemplate c t (c.sha1hex t))) := by
  intro w b w' hw h
  have h : evaluateTemplate c t (c.sha1hex t) e w = (.ok b, w') := Option.some.inj h
  have := (does_template (all := false) hu c hs t w hw trivial).1
  rw [h] at this
  exact ⟨this, template_told hu c hs hw h⟩

theorem tells_placeholders {c : WikiConf} {e : WebEnv} (hu : FirstRun e) (hs : SumsUsable c) (fuel : Nat) :
    ∀ (content : Str) (i : Nat) (st : TemplateState), RunTells c e (placeholderRun c fuel content i st) := by
  induction fuel with
  | zero => exact fun _ _ _ => .result _
  | succ fuel ih =>
    intro content i st
    unfold placeholderRun
    split
    · split
      · split
        · exact .result _
        · have hlast : ∀ (original inner : Str) (st : TemplateState), RunTells c e (Run.call (evaluateTemplate c (b!"{{" ++ inner)
              (c.sha1hex (b!"{{" ++ inner))) >>= fun evaluated => placeholderRun c fuel (replaceFirst original
                (templatePlaceholder (c.sha1hex (b!"{{" ++ inner))) content) (i + 1)
                ⟨st.calls ++ [(b!"{{" ++ inner, c.sha1hex (b!"{{" ++ inner))], setResult st.results (c.sha1hex (b!"{{" ++ inner)) evaluated⟩) :=
            fun _ _ _ => .bind (.template hu hs _) fun _ => ih _ _ _
          dsimp only
          split
          · exact .bind (ih _ _ _) fun p => hlast _ p.1 p.2
          · exact .bind (.pure _) fun p => hlast _ p.1 p.2
      · exact ih _ _ _
    · exact .pure _

theorem tells_tokenize {c : WikiConf} {e : WebEnv} (hu : FirstRun e) (hs : SumsUsable c) (env : ParserEnv)
    (iterate : Nat → List (Str × Str) → List (Str × Str)) (fuel : Nat) (content : Str) :
    RunTells c e (tokenizeRun env c iterate fuel content) := by
  refine .bind (.result _) fun content => .bind ?_ fun content => .bind (.result _) fun content => .result _
  refine .bind (tells_placeholders hu hs fuel _ _ _) ?_
  rintro ⟨content, st⟩
  exact .result _

/-! ### The page -/

/-- These bytes were in the cache at `w`, or the server has sent them between `w` and `w'`. -/
def Given (e : WebEnv) (w w' : World) (folder name url bytes : Str) : Prop :=
  cachedBytes e.cache.cacheDir w.fs folder name = some bytes ∨ Sent w w' url bytes

/-- What a run that has made a page has worked with: the article and the answers for templates were in the cache or have been sent. -/
theorem run_given (env : ParserEnv) (c : WikiConf) (hs : SumsUsable c) (hconv : c.mathConverter ≠ .template)
    (hh : c.imageArticleHosts ≠ []) (decode : Str → Option SvgAttributes) (iterate : Nat → List (Str × Str) → List (Str × Str)) (fuel : Nat)
    (style article : Str) (e : WebEnv) (hu : FirstRun e) (w w' : World) (hwf : w.fs.WF) (hage : NothingOutdated e w.fs)
    (hnames : ∀ text s w1, parseRun env c iterate fuel article e w = some (.ok (text, s), w1) →
      ∀ image ∈ s.images, ∃ name, NamedBy image name ∧ name ∉ [b!"", b!".", b!".."])
    (page : Str) (hrun : articleRun env c decode e.cache.cacheDir iterate fuel style article e w = some (.ok page, w')) :
    ∃ text s w2 bytes title content, parseRun env c iterate fuel article e w = some (.ok (text, s), w2) ∧
      Given e w w2 b!"articles" (underscores article ++ b!".json") (articleUrl (c.wikiInstance ++ b!"." ++ c.host) article) bytes ∧
      c.decodeArticle bytes = some (title, content) ∧
      (∀ key, key ∉ [b!"", b!".", b!".."] → ∀ b, cachedBytes e.cache.cacheDir w2.fs b!"templates" key = some b →
        ∃ t, (c.sha1hex t = key ∨ cachedBytes e.cache.cacheDir w.fs b!"templates" key = some b) ∧ Given e w w2 b!"templates" key (templateUrl c t) b) ∧
      articleHtml env (cachedTemplates c e.cache.cacheDir w2.fs) iterate (cachedMath decode c e.cache.cacheDir w'.fs) fuel style article content =
        some (.ok page) := by
  have hfine : Fine e w.fs := ⟨hwf, fun folder _ name _ f hg k => hage.1 _ f hg k⟩
  obtain ⟨dto, w1, g1, hrun⟩ := run_bind_inv hrun
  obtain ⟨⟨text, s⟩, w2, g2, hrun⟩ := run_bind_inv hrun
  obtain ⟨u, w3, g3, hrun⟩ := run_bind_inv hrun
  obtain ⟨body, w4, g4, hrun⟩ := run_bind_inv hrun
  cases hrun
  have hparse : parseRun env c iterate fuel article e w = some (.ok (text, s), w2) := by
    rw [parseRun, run_bind_ok g1]
    exact g2
  have g1' : downloadArticle c (c.wikiInstance ++ b!"." ++ c.host) article e w = (.ok dto, w1) := Option.some.inj g1
  have g3' : downloadImages c e.cache.cacheDir s.images e w2 = (.ok u, w3) := Option.some.inj g3
  obtain ⟨a1, a2, a3⟩ := does_article (all := false) hu c (c.wikiInstance ++ b!"." ++ c.host) article w hfine trivial
  rw [g1'] at a1 a2 a3
  obtain ⟨ht, bytes, hb, hd⟩ := a3 dto rfl
  obtain ⟨told1, hart⟩ := article_told hu c hfine g1'
  obtain ⟨b1, told2⟩ := tells_tokenize hu hs env iterate fuel dto.content w1 _ w2 a1 g2
  obtain ⟨-, b2, b3⟩ := does_tokenize (all := false) hu env c hs iterate fuel dto.content w1 _ w2 a1 g2
  obtain ⟨c1, c2, c3⟩ := does_images hu c hh s.images (hnames text s w2 hparse) w2 b1 trivial
  rw [g3'] at c1 c2 c3
  obtain ⟨d1, d2, d3⟩ := does_expand hu c hs hconv decode s.tokenMap fuel text w3 _ w' c1 g4
  have htok : tokenizeArticle env (cachedTemplates c e.cache.cacheDir w2.fs) iterate fuel dto.content = some (.ok (text, s)) :=
    b3 _ rfl w2.fs .refl
  refine ⟨text, s, w2, bytes, dto.title, dto.content, hparse, ?_, hd, ?_, ?_⟩
  · rcases hart bytes hb with h | h
    · exact .inl h
    · exact .inr (sent_later h told1.1 told2.1)
  · intro key hk b hb
    rcases (told1.trans told2).2 key hk b hb with h | ⟨t, h1, h2⟩
    · exact ⟨[], .inr h, .inl h⟩
    · exact ⟨t, .inl h1, .inr h2⟩
  · unfold articleHtml
    rw [htok]
    show (expandString (cachedMath decode c e.cache.cacheDir w'.fs) s.tokenMap fuel text >>= fun body =>
      (some (.ok (htmlHeader style ++ b!"\n<h1>" ++ article ++ b!"</h1>\n" ++ body ++ htmlFooter)) : ExpM Str) : ExpM Str) = _
    rw [show expandString (cachedMath decode c e.cache.cacheDir w'.fs) s.tokenMap fuel text = (some (.ok body) : ExpM Str) from
      d3 body rfl w'.fs .refl, ← ht]
    rfl

/-- The answers of the cache, and the given ones for templates without an answer in the cache. -/
def withAllAnswers (t : TemplateEnv) (answer : Str → Str) : TemplateEnv where
  hash := t.hash
  evaluate text key :=
    match t.evaluate text key with
    | .ok x => .ok x
    | _ => .ok (answer text)

theorem withAllAnswers_mayFail (c : WikiConf) (dir : Str) (fs : FS) (answer : Str → Str) :
    TemplatesMayFail (cachedTemplates c dir fs) (withAllAnswers (cachedTemplates c dir fs) answer) := by
  refine ⟨rfl, fun text key => ?_⟩
  simp only [withAllAnswers, cachedTemplates]
  cases h : (cachedBytes dir fs b!"templates" key).bind c.decodeTemplate with
  | none => exact .inr rfl
  | some x => exact .inl rfl

/-- **C78** (partly): whenever the program has made a page, then this page is the HTML of the article, with the requested title as
heading, each template replaced by its answer and each formula by its picture. Here the article and each answer is what was in the cache
before the run or what the wiki has sent in this run for the article and for the template (or for one with the same SHA-1 sum). Missing:
articles beyond the texts of C69, and eviction strategies. -/
theorem C78_page_is_made_from_what_was_given_partial (env : ParserEnv) (hp : PlainPrefixes env) (c : WikiConf) (hs : SumsUsable c)
    (hhex : ∀ t, ∀ b ∈ c.sha1hex t, b ∈ b!"0123456789abcdef") (hda : c.decodeArticle = unmarshalArticle) (hdt : c.decodeTemplate = unmarshalTemplate)
    (hconv : c.mathConverter ≠ .template) (hh : c.imageArticleHosts ≠ []) (decode : Str → Option SvgAttributes)
    (iterate : Nat → List (Str × Str) → List (Str × Str)) (hit : ∀ n m, (iterate n m).Perm m) (style article : Str)
    (e : WebEnv) (hu : FirstRun e) (w : World) (hwf : w.fs.WF) (hage : NothingOutdated e w.fs)
    -- the article
    (parts : List SourcePart) (d : TemplateText) (written all lines : List Str) (ha : CleanedArticle env parts d written all lines)
    -- its templates
    (text : NestedText) (htext : text.text = join b!"\n" lines) (hw : text.WellFormed [])
    (hinj : ∀ t ∈ text.templates, ∀ t' ∈ text.templates,
      c.sha1hex (t.request c.sha1hex) = c.sha1hex (t'.request c.sha1hex) → t.request c.sha1hex = t'.request c.sha1hex)
    -- the article with the answers
    (answer : Str → Str) (parts' : List SourcePart)
    (hx : Resolved (text.templates.map fun t => (c.sha1hex (t.request c.sha1hex), answer (t.request c.sha1hex)))
      (text.holed c.sha1hex) (sourceText parts'))
    (hc : ¬ b!"TEMPLATE_PLACEHOLDER_" <:+: sourceText parts')
    (hw' : ∀ p ∈ parts', p.WellFormed (linkRules env) fun name => IsIgnored env name = true ∧ IsTrailing env name = false)
    (hpl : WellPlaced parts') (doc : List (Nat × DocBlock)) (h : DocOk env doc)
    (all' : List Str) (ha' : WithEmptySections (HeadingOfArticle env) (documentSource doc) all')
    (written' : List Str) (hl : WrittenLines all' written') (hk : keptText parts' = join b!"\n" written')
    -- the run
    (fuel : Nat) (page : Str) (w' : World)
    (hrun : articleRun env c decode e.cache.cacheDir iterate fuel style article e w = some (.ok page, w'))
    (hgiven : ∀ content s w1, parseRun env c iterate fuel article e w = some (.ok (content, s), w1) →
      (∀ image ∈ s.images, ∃ name, NamedBy image name ∧ name ∉ [b!"", b!".", b!".."]) ∧
      (∀ bytes, Given e w w1 b!"articles" (underscores article ++ b!".json") (articleUrl (c.wikiInstance ++ b!"." ++ c.host) article) bytes →
        ∃ name json, JsonText json bytes ∧ nesting json ≤ 10000 ∧ ArticleAnswer name (sourceText parts) json) ∧
      ∀ t ∈ text.templates, ∀ t', c.sha1hex t' = c.sha1hex (t.request c.sha1hex) →
        ∀ bytes, Given e w w1 b!"templates" (c.sha1hex (t.request c.sha1hex)) (templateUrl c t') bytes →
          ∃ json, JsonText json bytes ∧ nesting json ≤ 10000 ∧ TemplateAnswer (answer (t.request c.sha1hex)) json) :
    page = htmlHeader style ++ b!"\n<h1>" ++ article ++ b!"</h1>\n" ++
      join b!"\n" (documentHtml ⟨ArticleImage.html env (imageSource (cachedMath decode c e.cache.cacheDir w'.fs)),
        formulaPicture (cachedMath decode c e.cache.cacheDir w'.fs)⟩ false doc) ++ htmlFooter := by
  obtain ⟨steps, hsteps⟩ := page_of_steps env hp c doc h (source := sourceText parts) (x := sourceText parts') ((join b!"\n" lines).length + 1)
    ((join b!"\n" (documentSource doc)).length + 1) (fun fuel hf => clean_article ha fuel (by omega))
    (fun fuel hf => clean_hidden env doc h parts' hw' hpl all' ha' written' hl hk fuel (by omega))
  obtain ⟨content0, s, w2, bytes, title, content, g0, g1, g2, g3, g4⟩ := run_given env c hs hconv hh decode iterate fuel style article e hu w w'
    hwf hage (fun t s w1 hr => (hgiven t s w1 hr).1) page hrun
  obtain ⟨-, k1, k2⟩ := hgiven _ _ _ g0
  obtain ⟨name, json, j1, j2, j3⟩ := k1 bytes g1
  rw [hda, unmarshalArticle_answer j1 j2 j3] at g2
  cases g2
  have g5 : articleHtml env (withAllAnswers (cachedTemplates c e.cache.cacheDir w2.fs) answer) iterate
      (cachedMath decode c e.cache.cacheDir w'.fs) fuel style article (sourceText parts) = some (.ok page) := by
    rcases C76_failures_give_no_other_page env _ _ iterate (cachedMath decode c e.cache.cacheDir w'.fs) (cachedMath decode c e.cache.cacheDir w'.fs)
      (withAllAnswers_mayFail c e.cache.cacheDir w2.fs answer) ⟨rfl, fun _ => .inl rfl⟩ fuel style article (sourceText parts) with e1 | e1
    · rw [← e1]; exact g4
    · rw [g4] at e1; cases e1
  refine hsteps (fuel + steps) (by omega) (withAllAnswers (cachedTemplates c e.cache.cacheDir w2.fs) answer) iterate _ style article page
    (cachedMath_fails decode c _ _) ?_ ((later_articleHtml env _ iterate _ fuel (fuel + steps) (by omega) _ _ _).eq_some g5)
  obtain ⟨k', he⟩ := evaluate_resolved (withAllAnswers (cachedTemplates c e.cache.cacheDir w2.fs) answer) text hw hhex hinj answer (fun t ht => by
    show (match (cachedTemplates c e.cache.cacheDir w2.fs).evaluate (t.request c.sha1hex) (c.sha1hex (t.request c.sha1hex)) with
      | .ok x => Res.ok x
      | _ => .ok (answer (t.request c.sha1hex))) = Res.ok (answer (t.request c.sha1hex))
    simp only [cachedTemplates]
    cases hb : cachedBytes e.cache.cacheDir w2.fs b!"templates" (c.sha1hex (t.request c.sha1hex)) with
    | none => rfl
    | some b =>
      have hj : ∃ json, JsonText json b ∧ nesting json ≤ 10000 ∧ TemplateAnswer (answer (t.request c.sha1hex)) json := by
        obtain ⟨t', h1, h2⟩ := g3 _ (hs.sha1 _) b hb
        rcases h1 with h1 | h1
        · exact k2 t ht t' h1 b h2
        · exact k2 t ht _ rfl b (.inl h1)
      obtain ⟨j, b2, b3, b4⟩ := hj
      rw [Option.bind_some, hdt, unmarshalTemplate_answer b2 b3 b4]) _ hx hc iterate hit
  rw [htext] at he
  exact ⟨k', _, he⟩

/-! ### Examples -/

def walkParse : Option (Outcome (Str × TokState) × World) :=
  parseRun exampleEnv walkConf (fun _ l => l) 100 b!"A b" repeatEnv walkWorld

theorem walkParse_events : walkParse.map (fun r => r.2.events) = some [
    .request b!"GET" (articleUrl b!"de.wikipedia.org" b!"A b") [], .request b!"GET" (templateUrl walkConf b!"{{n}}") []] := by decide +kernel

/-- What was sent in the run of the example. -/
theorem walk_sent {content : Str} {s : TokState} {w1 : World} (h : walkParse = some (.ok (content, s), w1)) {url bytes : Str}
    (hs : Sent walkWorld w1 url bytes) :
    url = articleUrl b!"de.wikipedia.org" b!"A b" ∧ bytes = walkText ∨ url = templateUrl walkConf b!"{{n}}" ∧ bytes = walkTemplateText := by
  obtain ⟨new, r, e1, e2, -, -, rfl⟩ := hs
  have h2 := walkParse_events
  rw [h, Option.map_some, Option.some.injEq, e1] at h2
  have h3 : new = [.request b!"GET" (articleUrl b!"de.wikipedia.org" b!"A b") [], .request b!"GET" (templateUrl walkConf b!"{{n}}") []] := h2
  rw [h3] at e2
  simp only [exchanges, walkWorld, List.mem_cons, List.not_mem_nil, or_false, Prod.mk.injEq, Event.request.injEq, answer, Answer.response.injEq] at e2
  rcases e2 with ⟨⟨-, h1, -⟩, rfl⟩ | ⟨⟨-, h1, -⟩, rfl⟩
  · exact .inl ⟨h1, rfl⟩
  · exact .inr ⟨h1, rfl⟩

theorem walk_urls (t : Str) : templateUrl walkConf t ≠ articleUrl b!"de.wikipedia.org" b!"A b" := by
  intro h
  have h1 : (b!"https://de.wikipedia.org/w/api.php?action=e" : Str) <+: templateUrl walkConf t := by
    unfold templateUrl
    simp only [List.append_assoc]
    exact ⟨_, rfl⟩
  rw [h] at h1
  revert h1
  decide +kernel

attribute [local irreducible] walkAfter walkParse in
/-- All hypotheses are met by a run with two requests: it shows that the page of this run is `walkPage`. -/
example : walkRun = some (.ok walkPage, walkAfter) ∧ ∀ page w', walkRun = some (.ok page, w') → page = walkPage := by
  refine ⟨walkRun_ok, fun page w' h => ?_⟩
  have hempty : ∀ folder name, cachedBytes repeatEnv.cache.cacheDir walkWorld.fs folder name = none := fun _ _ => rfl
  refine (C78_page_is_made_from_what_was_given_partial exampleEnv exampleEnv_plain walkConf walk_sums (fun _ => show ∀ b ∈ b!"cd", _ by decide) rfl rfl
    (by decide) (by decide) demoDecode (fun _ l => l) (fun _ _ => List.Perm.refl _) b!"s.css" b!"A b" repeatEnv repeatEnv_usable walkWorld
    (by simp [FS.WF, walkWorld]) ⟨fun p f hf => absurd hf (by simp [walkWorld, FS.get]), fun k l => show (100 : Int) - 100 < (60 + 1) * 60000000000 by decide⟩
    [.shown b!"Walk {{n}} km."] walkSource
    walkLines walkLines walkLines walk_cleaned walkNested (by decide +kernel) walkNested_ok walk_one (fun _ => b!"3") [.shown b!"Walk 3 km."] walk_resolved
    (by decide +kernel) (by simp [SourcePart.WellFormed]) (placed_of_test (by decide +kernel)) walkDoc walkDoc_ok (documentSource walkDoc)
    (withEmptySections_refl _ _) [b!"Walk 3 km."] walk_written walk_kept 100 page w' h ?_).trans rfl
  intro content s w1 h1
  have hp : walkParse = some (.ok (content, s), w1) := by
    unfold walkParse
    exact h1
  refine ⟨fun image hi => ?_, fun bytes hg => ?_, fun t _ t' _ bytes hg => ?_⟩
  · have h2 := walkRun_images
    rw [h1] at h2
    simp only [Option.map_some, Option.some.injEq] at h2
    rw [h2] at hi
    cases hi
  · rcases hg with hg | hg
    · rw [hempty] at hg; cases hg
    · rcases walk_sent hp hg with ⟨-, rfl⟩ | ⟨h2, -⟩
      · exact ⟨_, _, walk_json, by decide, walk_answer⟩
      · exact absurd h2.symm (walk_urls _)
  · rcases hg with hg | hg
    · rw [hempty] at hg; cases hg
    · rcases walk_sent hp hg with ⟨h2, -⟩ | ⟨-, rfl⟩
      · exact absurd h2 (walk_urls _)
      · exact ⟨_, walk_template_json, by decide, walk_template_answer⟩

end Verif.Props
