import Verif.Spec.Http
import Verif.Lemmas.Web
import Verif.Props.Cache

/-! # C13 – C15: requests and downloads -/

namespace Verif.Props

open Verif.Go Verif.Model Verif.Spec Verif.Lemmas FSl

/-! ## C14: rate limiting -/

/-- The text of a number is read as this number. -/
theorem atoi_decimal (k : Nat) (h : k ≤ 9223372036854775807) : atoi (decimal k) = some (k : Int) := by
  have hd := decimal_digits k
  have hne := decimal_ne_nil k
  have hval : ∀ (l : Str) (acc : Nat), (∀ c ∈ l, 48 ≤ c ∧ c ≤ 57) →
      l.foldl (fun (acc : Int) c => acc * 10 + (c.toNat - 48 : Int)) (acc : Int) =
        ((l.foldl (fun acc c => acc * 10 + (c.toNat - 48)) acc : Nat) : Int) := by
    intro l
    induction l with
    | nil => intro acc _; rfl
    | cons c l ih =>
      intro acc hl
      have hc := (hl c (by simp)).1
      rw [UInt8.le_iff_toNat_le] at hc
      have h48 : (48 : UInt8).toNat = 48 := rfl
      rw [List.foldl_cons, List.foldl_cons, ← ih _ (fun c hc => hl c (by simp [hc]))]
      congr 1
      omega
  have hv := hval (decimal k) 0 hd
  have hu := undecimal_decimal k
  unfold undecimal at hu
  rw [hu] at hv
  have hall : (decimal k).all (fun c => 48 ≤ c && c ≤ 57) = true := by
    rw [List.all_eq_true]
    intro c hc
    have := hd c hc
    simp [this.1, this.2]
  unfold atoi
  cases hk : decimal k with
  | nil => exact absurd hk hne
  | cons c t =>
    have hc := hd c (by rw [hk]; simp)
    have h1 : c ≠ 0x2D := by rintro rfl; exact absurd hc.1 (by decide)
    have h2 : c ≠ 0x2B := by rintro rfl; exact absurd hc.1 (by decide)
    rw [hk] at hv hall
    split
    · rename_i he; rw [List.cons.injEq] at he; exact absurd he.1 h1
    · rename_i he; rw [List.cons.injEq] at he; exact absurd he.1 h2
    · unfold parseDigits
      rw [if_pos ⟨by simp, hall⟩]
      simp only [Bool.false_eq_true, if_false]
      rw [show (0 : Int) = ((0 : Nat) : Int) from rfl, hv, if_pos (by omega)]

/-- **C14** A request is repeated exactly as long as the server answers 429, with the asked waiting times in
between, and the first other answer decides. No further answer is consumed. -/
theorem C14_retry (method url body : Str) (env : WebEnv) (w : World) (limits rest : List Answer) (a : Answer)
    (hl : ∀ x ∈ limits, TooMany x) (ha : ¬ TooMany a) (hw : w.script = limits ++ a :: rest) :
    (doRequest method url body env w).1 = verdict a ∧
    (doRequest method url body env w).2.script = rest ∧
    (doRequest method url body env w).2.fs = w.fs ∧
    ∃ bodies : List Str, bodies.length = limits.length ∧
      (doRequest method url body env w).2.events = w.events ++
        ((List.zip (body :: bodies) (limits.map secondsAsked)).flatMap fun (b, s) =>
          [.request method url b, .sleep s]) ++ [.request method url ((body :: bodies).getLast (by simp))] := by
  have key : ∀ (limits : List Answer) (body : Str), (∀ x ∈ limits, TooMany x) →
      (requestLoop method url body (limits ++ a :: rest)).2 = (verdict a, rest) ∧
      ∃ bodies : List Str, bodies.length = limits.length ∧
      (requestLoop method url body (limits ++ a :: rest)).1 =
        ((List.zip (body :: bodies) (limits.map secondsAsked)).flatMap fun (b, s) =>
          [.request method url b, .sleep s]) ++ [.request method url ((body :: bodies).getLast (by simp))] := by
    intro limits
    induction limits with
    | nil =>
      intro body _
      cases a with
      | failed => exact ⟨rfl, [], rfl, rfl⟩
      | response r =>
        have h4 : ¬ r.status = 429 := ha
        refine ⟨?_, [], rfl, ?_⟩
        · simp only [List.nil_append, requestLoop, if_neg h4, verdict]
          by_cases h2 : r.status = 200 <;> by_cases h3 : r.apiError = [] <;> simp [h2, h3]
        · simp only [List.nil_append, requestLoop, if_neg h4]
          by_cases h2 : r.status = 200 <;> by_cases h3 : r.apiError = [] <;> simp [h2, h3]
    | cons x limits ih =>
      intro body hl
      cases x with
      | failed => exact absurd (hl .failed (by simp)) (by simp [TooMany])
      | response r =>
        have h4 : r.status = 429 := hl (.response r) (by simp)
        obtain ⟨h1, bodies, h2, h3⟩ := ih [] (fun x hx => hl x (by simp [hx]))
        refine ⟨?_, [] :: bodies, by simp [h2], ?_⟩
        · simp only [List.cons_append, requestLoop, if_pos h4]
          rw [← h1]
        · simp only [List.cons_append, requestLoop, if_pos h4]
          rw [h3]
          simp [secondsAsked, waitTime]
  obtain ⟨h1, bodies, h2, h3⟩ := key limits body hl
  have hd : doRequest method url body env w =
      ((requestLoop method url body w.script).2.1, { w with
        events := w.events ++ (requestLoop method url body w.script).1,
        script := (requestLoop method url body w.script).2.2 }) := rfl
  rw [hd, hw]
  refine ⟨by rw [h1], by rw [h1], rfl, bodies, h2, ?_⟩
  simp only [h3, List.append_assoc]

/-- **C14** As long as only 429 answers come, the request does not end. -/
theorem C14_no_other_end (method url body : Str) (env : WebEnv) (w : World)
    (hl : ∀ x ∈ w.script, TooMany x) : (doRequest method url body env w).1 = .waiting := by
  have key : ∀ (l : List Answer) (body : Str), (∀ x ∈ l, TooMany x) →
      (requestLoop method url body l).2.1 = .waiting := by
    intro l
    induction l with
    | nil => intro _ _; rfl
    | cons x l ih =>
      intro body hl
      cases x with
      | failed => exact absurd (hl .failed (by simp)) (by simp [TooMany])
      | response r =>
        have h4 : r.status = 429 := hl (.response r) (by simp)
        simp only [requestLoop, if_pos h4]
        exact ih [] (fun x hx => hl x (by simp [hx]))
  exact key w.script body hl

/-! Concrete data. -/

def answer (status : Int) (retry err body : Str) : Answer := .response ⟨status, retry, err, [], ⟨body, true⟩⟩

def demoWeb : WebEnv := ⟨demoEnv .lru, noFaults, fun _ => 100, fun _ => b!"123", fun _ _ => ⟨true, none⟩⟩

example : TooMany (answer 429 b!"7" [] []) ∧ ¬ TooMany (answer 200 [] [] b!"x") ∧
    secondsAsked (answer 429 b!"7" [] []) = 7 ∧ secondsAsked (answer 429 b!"soon" [] []) = 2 := by
  refine ⟨rfl, ?_, rfl, rfl⟩
  show ¬ ((200 : Int) = 429)
  decide

/-! ## C15: the body of repeated POST requests -/

/-- **C15** fails: after a 429 answer the repeated POST request has an empty body. -/
theorem C15_repeated_post_is_empty :
    (postFormEncoded b!"u" b!"q=1" demoWeb ⟨[], 0, [], [answer 429 b!"1" [] [], answer 200 [] [] []]⟩).2.events =
      [.request b!"POST" b!"u" b!"q=1", .sleep 1, .request b!"POST" b!"u" b!""] := by
  decide

/-- **C15**, general form of the failure: whatever the form is, *every* repetition is sent without it. -/
theorem C15_every_repetition_is_empty (url data : Str) (env : WebEnv) (w : World) :
    ∃ k, requestedBodies (postFormEncoded url data env w).2.events =
      requestedBodies w.events ++ data :: List.replicate k [] := by
  have key : ∀ (l : List Answer) (body : Str), ∃ k,
      requestedBodies (requestLoop b!"POST" url body l).1 = body :: List.replicate k [] := by
    intro l
    induction l with
    | nil => intro body; exact ⟨0, rfl⟩
    | cons x l ih =>
      intro body
      cases x with
      | failed => exact ⟨0, rfl⟩
      | response r =>
        obtain ⟨k, hk⟩ := ih []
        unfold requestLoop
        split
        · exact ⟨k + 1, by
            simp only [requestedBodies, List.filterMap_cons] at hk ⊢
            rw [hk]; rfl⟩
        · split
          · exact ⟨0, rfl⟩
          · split <;> exact ⟨0, rfl⟩
  obtain ⟨k, hk⟩ := key w.script data
  refine ⟨k, ?_⟩
  show requestedBodies (w.events ++ (requestLoop _ _ _ _).1) = _
  rw [← hk]
  simp [requestedBodies]

/-- **C15**, part that holds: all repetitions have the same method and URL, and are identical when the request
has no body (downloads). -/
theorem C15_get_repetitions_identical_partial (method url : Str) (env : WebEnv) (w : World) :
    ∃ new, (doRequest method url [] env w).2.events = w.events ++ new ∧
      ∀ e ∈ new, e = .request method url [] ∨ ∃ s, e = .sleep s := by
  have key : ∀ (l : List Answer), ∀ e ∈ (requestLoop method url [] l).1,
      e = .request method url [] ∨ ∃ s, e = .sleep s := by
    intro l
    induction l with
    | nil => intro e he; simp [requestLoop] at he; exact Or.inl he
    | cons x l ih =>
      cases x with
      | failed => intro e he; simp [requestLoop] at he; exact Or.inl he
      | response r =>
        unfold requestLoop
        split
        · intro e he
          simp only [List.mem_cons] at he
          rcases he with he | he | he
          · exact Or.inl he
          · exact Or.inr ⟨_, he⟩
          · exact ih e he
        · split
          · intro e he; simp at he; exact Or.inl he
          · split <;> (intro e he; simp at he; exact Or.inl he)
  exact ⟨_, rfl, key w.script⟩

/-! ## C13: downloads and the cache -/

section
variable (env : WebEnv) (url folder name : Str) (w : World)

/-- **C13** (hit) When the cache has a file that is not too old, nothing is requested, the path of the file is
returned and its content (and all other files) are unchanged. -/
theorem C13_hit (hv : ValidKey env.cache folder name) (hff : env.faults = noFaults) (f : File)
    (hmax : 0 ≤ env.cache.maxAge)
    (hg : w.fs.get (getFilePathInCache env.cache.cacheDir folder name) = some f)
    (hage : env.clock w.ops - f.mtime < (env.cache.maxAge + 1) * 60000000000) :
    let entry := getFilePathInCache env.cache.cacheDir folder name
    let r := downloadAndCache url folder name env w
    r.1 = .ok (entry, false) ∧ r.2.events = w.events ∧ r.2.script = w.script ∧
    (∃ t, r.2.fs.get entry = some ⟨f.content, t⟩) ∧ (∀ p, p ≠ entry → r.2.fs.get p = w.fs.get p) := by
  intro entry r
  obtain ⟨h1, -, h3⟩ := C07_lookup_existing env.cache folder name (env.clock w.ops) w.ops w.fs hv f hmax hg
  obtain ⟨h1, h2⟩ := h1 hage
  have hr : r = (.ok (entry, false), { w with
      fs := (getFile env.cache folder name (env.clock w.ops) noFaults w.ops w.fs).fs,
      ops := (getFile env.cache folder name (env.clock w.ops) noFaults w.ops w.fs).step }) := by
    show Web.bind _ _ _ _ = _
    unfold Web.bind Web.files
    simp only [hff, h1, Web.ofRes]
    rfl
  rw [hr]
  exact ⟨rfl, rfl, rfl, ⟨_, h2⟩, h3⟩

/-- What `DownloadAndCache` does when the lookup finds nothing usable. -/
theorem downloadAndCache_miss (hff : env.faults = noFaults)
    (hmiss : ∃ q, (getFile env.cache folder name (env.clock w.ops) noFaults w.ops w.fs).res = .ok (q, false)) :
    downloadAndCache url folder name env w = downloadMissing url folder name env { w with
      fs := (getFile env.cache folder name (env.clock w.ops) noFaults w.ops w.fs).fs,
      ops := (getFile env.cache folder name (env.clock w.ops) noFaults w.ops w.fs).step } := by
  obtain ⟨q, hq⟩ := hmiss
  show Web.bind _ _ _ _ = _
  unfold Web.bind Web.files
  simp only [hff, hq, Web.ofRes]
  rfl

/-- What happens after a miss, in terms of the request. -/
theorem downloadMissing_run (w : World) :
    (downloadMissing url folder name env w).2.events = (doRequest b!"GET" url [] env w).2.events ∧
    (downloadMissing url folder name env w).2.script = (doRequest b!"GET" url [] env w).2.script ∧
    ((doRequest b!"GET" url [] env w).1 = .err →
      (downloadMissing url folder name env w).1 = .err ∧ (downloadMissing url folder name env w).2.fs = w.fs) ∧
    (∀ resp, (doRequest b!"GET" url [] env w).1 = .ok resp →
      let o := cacheToFile env.cache folder name resp.body (env.rnd w.ops) (env.clock w.ops) env.faults w.ops w.fs
      (downloadMissing url folder name env w).1 =
        (match o.res with | .ok p => .ok (p, true) | .err => .err | .panic => .panic | .fatal => .fatal) ∧
      (downloadMissing url folder name env w).2.fs = o.fs) := by
  have hfs : (doRequest b!"GET" url [] env w).2.fs = w.fs := rfl
  have hops : (doRequest b!"GET" url [] env w).2.ops = w.ops := rfl
  generalize hd : doRequest b!"GET" url [] env w = r at hfs hops ⊢
  obtain ⟨o, w'⟩ := r
  simp only at hfs hops
  cases o with
  | ok resp =>
    have hrun : downloadMissing url folder name env w =
        (Web.files (fun env now rnd => cacheToFile env folder name resp.body rnd now) >>=
          fun path => pure (path, true)) env w' :=
      web_bind_ok (web_bind_ok (f := fun r : Response => (pure r.body : Web Reader)) hd)
    rw [hrun]
    have hf : Web.files (fun env now rnd => cacheToFile env folder name resp.body rnd now) env w' =
        (Web.ofRes (cacheToFile env.cache folder name resp.body (env.rnd w.ops) (env.clock w.ops) env.faults w.ops w.fs).res,
          { w' with
            fs := (cacheToFile env.cache folder name resp.body (env.rnd w.ops) (env.clock w.ops) env.faults w.ops w.fs).fs,
            ops := (cacheToFile env.cache folder name resp.body (env.rnd w.ops) (env.clock w.ops) env.faults w.ops w.fs).step }) := by
      unfold Web.files; rw [hfs, hops]
    generalize hc : cacheToFile env.cache folder name resp.body (env.rnd w.ops) (env.clock w.ops) env.faults w.ops w.fs
      = o at hf
    have last : ∀ resp', (Outcome.ok resp, w').1 = .ok resp' →
        cacheToFile env.cache folder name resp'.body (env.rnd w.ops) (env.clock w.ops) env.faults w.ops w.fs = o := by
      intro resp' h; cases h; exact hc
    cases ho : o.res with
    | ok p =>
      rw [ho] at hf
      rw [web_bind_ok hf]
      refine ⟨rfl, rfl, fun h => (by cases h), ?_⟩
      intro resp' h
      simp only [last resp' h, ho]
      exact ⟨by trivial, by trivial⟩
    | err =>
      rw [ho] at hf
      rw [web_bind_err hf]
      refine ⟨rfl, rfl, fun h => (by cases h), ?_⟩
      intro resp' h
      simp only [last resp' h, ho]
      exact ⟨by trivial, by trivial⟩
    | panic =>
      rw [ho] at hf
      rw [web_bind_panic hf]
      refine ⟨rfl, rfl, fun h => (by cases h), ?_⟩
      intro resp' h
      simp only [last resp' h, ho]
      exact ⟨by trivial, by trivial⟩
    | fatal =>
      rw [ho] at hf
      rw [web_bind_fatal hf]
      refine ⟨rfl, rfl, fun h => (by cases h), ?_⟩
      intro resp' h
      simp only [last resp' h, ho]
      exact ⟨by trivial, by trivial⟩
  | err =>
    have hrun : downloadMissing url folder name env w = (.err, w') :=
      web_bind_err (web_bind_err (f := fun r : Response => (pure r.body : Web Reader)) hd)
    rw [hrun]
    exact ⟨rfl, rfl, fun _ => ⟨rfl, hfs⟩, fun resp h => by cases h⟩
  | panic =>
    have hrun : downloadMissing url folder name env w = (.panic, w') :=
      web_bind_panic (web_bind_panic (f := fun r : Response => (pure r.body : Web Reader)) hd)
    rw [hrun]
    exact ⟨rfl, rfl, fun h => (by cases h), fun resp h => by cases h⟩
  | fatal =>
    have hrun : downloadMissing url folder name env w = (.fatal, w') :=
      web_bind_fatal (web_bind_fatal (f := fun r : Response => (pure r.body : Web Reader)) hd)
    rw [hrun]
    exact ⟨rfl, rfl, fun h => (by cases h), fun resp h => by cases h⟩
  | waiting =>
    have hrun : downloadMissing url folder name env w = (.waiting, w') :=
      web_bind_waiting (web_bind_waiting (f := fun r : Response => (pure r.body : Web Reader)) hd)
    rw [hrun]
    exact ⟨rfl, rfl, fun h => (by cases h), fun resp h => by cases h⟩

/-- A file that must be downloaded: it is missing or too old. -/
def NotUsable : Prop :=
  ∀ f, w.fs.get (getFilePathInCache env.cache.cacheDir folder name) = some f →
    ¬ env.clock w.ops - f.mtime < (env.cache.maxAge + 1) * 60000000000

/-- The lookup of a file that is not usable removes the file. -/
theorem lookup_not_usable (hv : ValidKey env.cache folder name) (hmax : 0 ≤ env.cache.maxAge)
    (hnu : NotUsable env folder name w) :
    let o := getFile env.cache folder name (env.clock w.ops) noFaults w.ops w.fs
    o.res = .ok (getFilePathInCache env.cache.cacheDir folder name, false) ∧
    o.fs.get (getFilePathInCache env.cache.cacheDir folder name) = none ∧
    ∀ p, p ≠ getFilePathInCache env.cache.cacheDir folder name → o.fs.get p = w.fs.get p := by
  intro o
  cases hg : w.fs.get (getFilePathInCache env.cache.cacheDir folder name) with
  | none =>
    obtain ⟨h1, h2⟩ := C07_lookup_missing env.cache folder name (env.clock w.ops) w.ops w.fs hv hg
    refine ⟨h1, ?_, ?_⟩
    · show (getFile _ _ _ _ _ _ _).fs.get _ = none; rw [h2]; exact hg
    · intro p _; show (getFile _ _ _ _ _ _ _).fs.get _ = _; rw [h2]
  | some f =>
    obtain ⟨-, h2, h3⟩ := C07_lookup_existing env.cache folder name (env.clock w.ops) w.ops w.fs hv f hmax hg
    obtain ⟨h1, h2⟩ := h2 (hnu f hg)
    exact ⟨h1, h2, h3⟩

/-- **C13** (miss) Otherwise the requests are exactly those of one GET request for the URL (see C14). -/
theorem C13_miss_requests_once (hv : ValidKey env.cache folder name) (hff : env.faults = noFaults)
    (hmax : 0 ≤ env.cache.maxAge) (hnu : NotUsable env folder name w) :
    (downloadAndCache url folder name env w).2.events = (doRequest b!"GET" url [] env w).2.events ∧
    (downloadAndCache url folder name env w).2.script = (doRequest b!"GET" url [] env w).2.script := by
  obtain ⟨h1, -, -⟩ := lookup_not_usable env folder name w hv hmax hnu
  rw [downloadAndCache_miss env url folder name w hff ⟨_, h1⟩]
  have := downloadMissing_run env url folder name { w with
      fs := (getFile env.cache folder name (env.clock w.ops) noFaults w.ops w.fs).fs,
      ops := (getFile env.cache folder name (env.clock w.ops) noFaults w.ops w.fs).step }
  generalize downloadMissing url folder name env _ = r at this ⊢
  exact ⟨this.1, this.2.1⟩

/-- **C13** (failed request) When the request fails, an error is returned and there is no entry; all other
files are unchanged. -/
theorem C13_failed_request_leaves_no_entry (hv : ValidKey env.cache folder name) (hff : env.faults = noFaults)
    (hmax : 0 ≤ env.cache.maxAge) (hnu : NotUsable env folder name w)
    (hfail : (doRequest b!"GET" url [] env w).1 = .err) :
    let entry := getFilePathInCache env.cache.cacheDir folder name
    let r := downloadAndCache url folder name env w
    r.1 = .err ∧ r.2.fs.get entry = none ∧ ∀ p, p ≠ entry → r.2.fs.get p = w.fs.get p := by
  intro entry r
  obtain ⟨h1, h2, h3⟩ := lookup_not_usable env folder name w hv hmax hnu
  have hr : r = downloadAndCache url folder name env w := rfl
  rw [downloadAndCache_miss env url folder name w hff ⟨_, h1⟩] at hr
  have := (downloadMissing_run env url folder name { w with
      fs := (getFile env.cache folder name (env.clock w.ops) noFaults w.ops w.fs).fs,
      ops := (getFile env.cache folder name (env.clock w.ops) noFaults w.ops w.fs).step }).2.2
  rw [← hr] at this
  have h4 := this.1 hfail
  exact ⟨h4.1, by rw [h4.2]; exact h2, fun p hp => by rw [h4.2]; exact h3 p hp⟩

/-- **C13** (success) When the request succeeds and the file can be stored, the entry has exactly the body of
the response as its content. The file can be stored e.g. under the conditions of C05. -/
theorem C13_success_stores_body (hv : ValidKey env.cache folder name) (hff : env.faults = noFaults)
    (hw : WalkOk env.cache) (hr : ∀ k, Digits (env.rnd k)) (hwf : w.fs.WF)
    (hmax : 0 ≤ env.cache.maxAge) (hnu : NotUsable env folder name w) (resp : Response)
    (hok : (doRequest b!"GET" url [] env w).1 = .ok resp) (p : Str) (fresh : Bool)
    (hres : (downloadAndCache url folder name env w).1 = .ok (p, fresh)) :
    fresh = true ∧ p = getFilePathInCache env.cache.cacheDir folder name ∧ resp.body.eof = true ∧
    ∃ k, (downloadAndCache url folder name env w).2.fs.get p = some ⟨resp.body.bytes, env.clock k⟩ := by
  obtain ⟨h1, h2, h3⟩ := lookup_not_usable env folder name w hv hmax hnu
  rw [downloadAndCache_miss env url folder name w hff ⟨_, h1⟩] at hres ⊢
  have := (downloadMissing_run env url folder name { w with
      fs := (getFile env.cache folder name (env.clock w.ops) noFaults w.ops w.fs).fs,
      ops := (getFile env.cache folder name (env.clock w.ops) noFaults w.ops w.fs).step }).2.2.2 resp hok
  obtain ⟨e1, e2⟩ := this
  rw [e2]
  rw [e1] at hres
  have hwf' : (getFile env.cache folder name (env.clock w.ops) noFaults w.ops w.fs).fs.WF :=
    (lookup_facts hv hwf (lookup_state hv _)).1
  simp only at hres
  generalize hc : cacheToFile _ _ _ _ _ _ _ _ _ = o at hres ⊢
  cases ho : o.res with
  | ok q =>
    rw [ho] at hres
    cases hres
    subst hc
    obtain ⟨c1, c2, c3, -⟩ := C01_write_success _ _ _ _ _ _ _ _ _ hw hv (hr _) hwf' _ ho
    exact ⟨rfl, c1, c2, _, c3⟩
  | err => rw [ho] at hres; cases hres
  | panic => rw [ho] at hres; cases hres
  | fatal => rw [ho] at hres; cases hres

/-- **C13** (again) Downloading the same file again (even from another URL) while it is not too old sends no
request and returns the same file, with the body of the response as content. -/
theorem C13_second_download_no_request (hv : ValidKey env.cache folder name) (hff : env.faults = noFaults)
    (hw : WalkOk env.cache) (hr : ∀ k, Digits (env.rnd k)) (hwf : w.fs.WF)
    (hmax : 0 ≤ env.cache.maxAge) (hnu : NotUsable env folder name w) (resp : Response)
    (hok : (doRequest b!"GET" url [] env w).1 = .ok resp) (p : Str) (fresh : Bool)
    (hres : (downloadAndCache url folder name env w).1 = .ok (p, fresh))
    (hclock : ∀ i j, env.clock i - env.clock j < (env.cache.maxAge + 1) * 60000000000) (url' : Str) :
    let r := downloadAndCache url' folder name env (downloadAndCache url folder name env w).2
    r.1 = .ok (p, false) ∧ r.2.events = (downloadAndCache url folder name env w).2.events ∧
    ∃ t, r.2.fs.get p = some ⟨resp.body.bytes, t⟩ := by
  obtain ⟨-, h2, -, k, h4⟩ :=
    C13_success_stores_body env url folder name w hv hff hw hr hwf hmax hnu resp hok p fresh hres
  subst h2
  obtain ⟨a1, a2, -, a4, -⟩ := C13_hit env url' folder name _ hv hff _ hmax h4 (hclock _ _)
  exact ⟨a1, a2, a4⟩

/-- **C13** (any failures) Whatever fails: after a download the entry is missing, or it has its old content, or
the complete body of a successful response to this request. -/
theorem C13_only_successful_bodies_stored (hv : ValidKey env.cache folder name)
    (hw : WalkOk env.cache) (hr : ∀ k, Digits (env.rnd k)) (hwf : w.fs.WF) (g : File)
    (hg : (downloadAndCache url folder name env w).2.fs.get
      (getFilePathInCache env.cache.cacheDir folder name) = some g) :
    (∃ f, w.fs.get (getFilePathInCache env.cache.cacheDir folder name) = some f ∧ g.content = f.content) ∨
    (∃ resp, (doRequest b!"GET" url [] env w).1 = .ok resp ∧ resp.body.eof = true ∧
      g.content = resp.body.bytes) := by
  have hlf := lookup_facts hv hwf (lookup_state (ff := env.faults) (now := env.clock w.ops) hv w.ops)
  obtain ⟨l1, -, -, l4⟩ := hlf
  have hfiles : Web.files (fun env now _ => getFile env folder name now) env w =
      (Web.ofRes (getFile env.cache folder name (env.clock w.ops) env.faults w.ops w.fs).res, { w with
        fs := (getFile env.cache folder name (env.clock w.ops) env.faults w.ops w.fs).fs,
        ops := (getFile env.cache folder name (env.clock w.ops) env.faults w.ops w.fs).step }) := rfl
  generalize getFile env.cache folder name (env.clock w.ops) env.faults w.ops w.fs = o at hfiles l1 l4
  have hstop : ∀ x, downloadAndCache url folder name env w = (x, { w with fs := o.fs, ops := o.step }) →
      (∃ f, w.fs.get (getFilePathInCache env.cache.cacheDir folder name) = some f ∧ g.content = f.content) := by
    intro x hx
    rw [hx] at hg
    exact l4 g hg
  cases ho : o.res with
  | err => rw [ho] at hfiles; exact Or.inl (hstop _ (web_bind_err hfiles))
  | panic => rw [ho] at hfiles; exact Or.inl (hstop _ (web_bind_panic hfiles))
  | fatal => rw [ho] at hfiles; exact Or.inl (hstop _ (web_bind_fatal hfiles))
  | ok x =>
    obtain ⟨q, c⟩ := x
    rw [ho] at hfiles
    cases c with
    | true => exact Or.inl (hstop _ (web_bind_ok hfiles))
    | false =>
      have hrun : downloadAndCache url folder name env w =
        downloadMissing url folder name env { w with fs := o.fs, ops := o.step } := web_bind_ok hfiles
      rw [hrun] at hg
      obtain ⟨-, -, m3, m4⟩ := downloadMissing_run env url folder name { w with fs := o.fs, ops := o.step }
      have hsame : (doRequest b!"GET" url [] env { w with fs := o.fs, ops := o.step }).1 =
          (doRequest b!"GET" url [] env w).1 := rfl
      cases hd : (doRequest b!"GET" url [] env w).1 with
      | err =>
        rw [hsame] at m3
        rw [(m3 hd).2] at hg
        exact Or.inl (l4 g hg)
      | ok resp =>
        rw [hsame] at m4
        rw [(m4 resp hd).2] at hg
        have hcr := C01_write_crash_atomic env.cache folder name resp.body (env.rnd o.step) (env.clock o.step)
          env.faults o.step o.fs hw hv (hr _) l1 _ (List.mem_append_right _ (List.mem_singleton.mpr rfl))
        simp only at hcr
        rcases hcr with h | h | ⟨h, f, h', h''⟩
        · rw [h] at hg; exact Or.inl (l4 g hg)
        · rw [h] at hg; cases hg
        · rw [h'] at hg
          cases hg
          exact Or.inr ⟨resp, rfl, h, h''⟩
      | panic =>
        have : downloadMissing url folder name env { w with fs := o.fs, ops := o.step } = (.panic,
            (doRequest b!"GET" url [] env { w with fs := o.fs, ops := o.step }).2) :=
          web_bind_panic (web_bind_panic (f := fun r : Response => (pure r.body : Web Reader)) (Prod.ext hd rfl))
        rw [this] at hg
        exact Or.inl (l4 g hg)
      | fatal =>
        have : downloadMissing url folder name env { w with fs := o.fs, ops := o.step } = (.fatal,
            (doRequest b!"GET" url [] env { w with fs := o.fs, ops := o.step }).2) :=
          web_bind_fatal (web_bind_fatal (f := fun r : Response => (pure r.body : Web Reader)) (Prod.ext hd rfl))
        rw [this] at hg
        exact Or.inl (l4 g hg)
      | waiting =>
        have : downloadMissing url folder name env { w with fs := o.fs, ops := o.step } = (.waiting,
            (doRequest b!"GET" url [] env { w with fs := o.fs, ops := o.step }).2) :=
          web_bind_waiting (web_bind_waiting (f := fun r : Response => (pure r.body : Web Reader)) (Prod.ext hd rfl))
        rw [this] at hg
        exact Or.inl (l4 g hg)

end

/-- A run: two 429 answers, then the file; the second download does not ask again. -/
def demoScript : List Answer := [answer 429 b!"7" [] [], answer 429 b!"" [] [], answer 200 [] [] b!"xy", answer 404 [] [] []]

example :
    let w : World := ⟨demoFs, 0, [], demoScript⟩
    let r := downloadAndCache b!"u" b!"images" b!"x" demoWeb w
    let r' := downloadAndCache b!"u" b!"images" b!"x" demoWeb r.2
    r.1 = .ok (b!"/c/images/x", true) ∧
    r.2.events = [.request b!"GET" b!"u" [], .sleep 7, .request b!"GET" b!"u" [], .sleep 2, .request b!"GET" b!"u" []] ∧
    r'.1 = .ok (b!"/c/images/x", false) ∧ r'.2.events = r.2.events := by
  decide

example : NotUsable demoWeb b!"images" b!"x" ⟨demoFs, 0, [], demoScript⟩ := by
  intro f h
  exact absurd h (by show ¬ (demoFs.get b!"/c/images/x" = some f); simp [show demoFs.get b!"/c/images/x" = none by decide])

end Verif.Props
