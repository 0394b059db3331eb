import Verif.Props.Wikipedia
import Verif.Spec.Request

/-! # C49: requests name what is asked for; C50: formulas -/

namespace Verif.Props

open Verif.Go Verif.Model Verif.Spec Verif.Lemmas FSl

theorem queryEscape_bytes (s : Str) : ∀ c ∈ queryEscape s, unreserved c = true ∨ c = 0x2B ∨ c = 0x25 := by
  have hx : ∀ n : Fin 16, unreserved (hexDigit n) = true := by decide
  intro c hc
  unfold queryEscape at hc
  rw [List.mem_flatMap] at hc
  obtain ⟨a, -, hc⟩ := hc
  split at hc
  · rename_i h
    rw [List.mem_singleton.mp hc]; exact .inl h
  · split at hc
    · rw [List.mem_singleton.mp hc]; exact .inr (.inl rfl)
    · have ha := a.toNat_lt
      simp only [percentByte, List.mem_cons, List.not_mem_nil, or_false] at hc
      rcases hc with rfl | rfl | rfl
      · exact .inr (.inr rfl)
      · exact .inl (hx ⟨a.toNat / 16, by omega⟩)
      · exact .inl (hx ⟨a.toNat % 16, by omega⟩)

theorem amp_not_in_queryEscape (s : Str) : (0x26 : Byte) ∉ queryEscape s := by
  intro h
  rcases queryEscape_bytes s _ h with h | h | h <;> exact absurd h (by decide)

theorem takeWhile_append_stop {p : Byte → Bool} {a : Str} {c : Byte} {r : Str} (ha : ∀ x ∈ a, p x = true)
    (hc : p c = false) : (a ++ c :: r).takeWhile p = a ∧ (a ++ c :: r).dropWhile p = c :: r := by
  induction a with
  | nil => simp [hc]
  | cons x a ih =>
    have := ih fun y hy => ha y (by simp [hy])
    simp [ha x (by simp), this]

/-- URL with host and query. -/
theorem url_parts {host path q : Str} (h1 : (0x2F : Byte) ∉ host) (h2 : (0x3F : Byte) ∉ host)
    (h3 : (0x3F : Byte) ∉ path) :
    hostOf (b!"https://" ++ host ++ (0x2F :: path) ++ 0x3F :: q) = some host ∧
    queryOf (b!"https://" ++ host ++ (0x2F :: path) ++ 0x3F :: q) = q := by
  constructor
  · unfold hostOf
    rw [if_pos (by simp [hasPrefix, List.isPrefixOf])]
    have : List.drop 8 (b!"https://" ++ host ++ (0x2F :: path) ++ 0x3F :: q) =
        host ++ 0x2F :: (path ++ 0x3F :: q) := by simp
    rw [this, (takeWhile_append_stop (a := host) ?_ (by decide)).1]
    intro x hx
    simp only [ne_eq, decide_not, Bool.not_eq_true', decide_eq_false_iff_not]
    rintro rfl; exact h1 hx
  · unfold queryOf
    rw [(takeWhile_append_stop (a := b!"https://" ++ host ++ (0x2F :: path)) ?_ (by decide)).2]
    · rfl
    intro x hx
    simp only [ne_eq, decide_not, Bool.not_eq_true', decide_eq_false_iff_not]
    rintro rfl
    simp only [List.mem_append, List.mem_cons] at hx
    rcases hx with (hx | hx) | hx
    · exact absurd hx (by decide)
    · exact h2 hx
    · rcases hx with hx | hx
      · exact absurd hx (by decide)
      · exact h3 hx

/-- The last field of a form, after fields that do not have its name. -/
theorem formField_last {pre name v : Str} {fields : List Str}
    (hpre : ∀ r : Str, (0x26 : Byte) ∉ r → split (pre ++ r) b!"&" = fields ++ [r])
    (hf : ∀ f ∈ fields, hasPrefix f (name ++ b!"=") = false) (hn : (0x26 : Byte) ∉ name) :
    formField (pre ++ (name ++ b!"=" ++ queryEscape v)) name = some v := by
  unfold formField
  rw [hpre _ (by
    simp only [List.mem_append, not_or]
    exact ⟨⟨hn, by decide⟩, amp_not_in_queryEscape v⟩), List.find?_append]
  have : fields.find? (fun p => hasPrefix p (name ++ b!"=")) = none := by
    rw [List.find?_eq_none]
    intro f hm; rw [hf f hm]; simp
  rw [this]
  have hp : hasPrefix (name ++ b!"=" ++ queryEscape v) (name ++ b!"=") = true := by
    unfold hasPrefix; rw [List.isPrefixOf_iff_prefix]; exact List.prefix_append _ _
  simp only [Option.none_or, List.find?_cons, hp, Option.bind_some]
  have : (name ++ b!"=" ++ queryEscape v).drop (name.length + 1) = queryEscape v := by
    rw [List.drop_append_of_le_length (by simp)]
    simp
  rw [this]
  exact urlDecode_queryEscape v

/-- A field before the last one. -/
theorem formField_before {pre r name : Str} {fields : List Str}
    (hpre : ∀ r : Str, (0x26 : Byte) ∉ r → split (pre ++ r) b!"&" = fields ++ [r]) (hr : (0x26 : Byte) ∉ r)
    {f : Str} (hf : fields.find? (fun p => hasPrefix p (name ++ b!"=")) = some f) :
    formField (pre ++ r) name = urlDecode true (f.drop (name.length + 1)) := by
  unfold formField
  rw [hpre r hr, List.find?_append, hf]
  rfl

/-- A request that asks `host` for the wikitext of the article `title`. -/
def AsksForArticle (host title : Str) : Event → Prop
  | .request method url body => method = b!"GET" ∧ body = [] ∧ hostOf url = some host ∧
      queryParam url b!"page" = some title ∧ queryParam url b!"action" = some b!"parse" ∧
      queryParam url b!"prop" = some b!"wikitext" ∧ queryParam url b!"format" = some b!"json" ∧
      queryParam url b!"redirects" = some b!"true"
  | .sleep _ => True
  | .command _ _ => False

/-- **C49** Every request for an article goes to the given host and asks for exactly this title (with
underscores instead of spaces), whatever characters it contains. -/
theorem C49_article_requests (c : WikiConf) (host title : Str) (h1 : (0x2F : Byte) ∉ host)
    (h2 : (0x3F : Byte) ∉ host) :
    Emits (AsksForArticle host (title.map fun c => if c = 0x20 then 0x5F else c)) (downloadArticle c host title) := by
  rw [← underscores_map]
  have hurl : articleUrl host title = b!"https://" ++ host ++ (0x2F :: b!"w/api.php") ++
      0x3F :: (b!"action=parse&prop=wikitext&redirects=true&format=json&" ++
        (b!"page" ++ b!"=" ++ queryEscape (underscores title))) := by
    unfold articleUrl
    simp
  obtain ⟨hh, hq⟩ := url_parts (path := b!"w/api.php")
    (q := b!"action=parse&prop=wikitext&redirects=true&format=json&" ++
        (b!"page" ++ b!"=" ++ queryEscape (underscores title))) h1 h2 (by decide)
  rw [← hurl] at hh hq
  have hpre : ∀ r : Str, (0x26 : Byte) ∉ r →
      split (b!"action=parse&prop=wikitext&redirects=true&format=json&" ++ r) b!"&" =
        [b!"action=parse", b!"prop=wikitext", b!"redirects=true", b!"format=json"] ++ [r] := by
    intro r hr
    have : b!"action=parse&prop=wikitext&redirects=true&format=json&" ++ r =
        b!"action=parse" ++ 0x26 :: (b!"prop=wikitext" ++ 0x26 :: (b!"redirects=true" ++ 0x26 ::
          (b!"format=json" ++ 0x26 :: r))) := by simp
    rw [this, split_singleton_append _ (by decide), split_singleton_append _ (by decide),
      split_singleton_append _ (by decide), split_singleton_append _ (by decide), split_singleton_of_not_mem hr]
    rfl
  have hlast : (0x26 : Byte) ∉ (b!"page" ++ b!"=" ++ queryEscape (underscores title)) := by
    simp only [List.mem_append, not_or]
    exact ⟨by decide, amp_not_in_queryEscape _⟩
  unfold downloadArticle readBytes
  refine .bind (.downloadAndCache _ _ _ ⟨rfl, rfl, hh, ?_, ?_, ?_, ?_, ?_⟩ fun _ => trivial) ?_
  · unfold queryParam; rw [hq]; exact formField_last hpre (by decide) (by decide)
  · unfold queryParam; rw [hq, formField_before hpre hlast (f := b!"action=parse") (by decide)]; decide
  · unfold queryParam; rw [hq, formField_before hpre hlast (f := b!"prop=wikitext") (by decide)]; decide
  · unfold queryParam; rw [hq, formField_before hpre hlast (f := b!"format=json") (by decide)]; decide
  · unfold queryParam; rw [hq, formField_before hpre hlast (f := b!"redirects=true") (by decide)]; decide
  · rintro ⟨path, b⟩
    refine .bind (.files _) fun bytes => .bind (.orErr _) ?_
    rintro ⟨t, content⟩
    exact .pure _

/-- A request that asks the configured Wikipedia instance to evaluate the template. -/
def AsksForTemplate (c : WikiConf) (template : Str) : Event → Prop
  | .request method url body => method = b!"GET" ∧ body = [] ∧
      hostOf url = some (c.wikiInstance ++ b!"." ++ c.host) ∧
      queryParam url b!"text" = some template ∧ queryParam url b!"action" = some b!"expandtemplates" ∧
      queryParam url b!"prop" = some b!"wikitext" ∧ queryParam url b!"format" = some b!"json"
  | .sleep _ => True
  | .command _ _ => False

/-- **C49** Every request for a template goes to the configured instance and contains exactly the text of the
template. -/
theorem C49_template_requests (c : WikiConf) (template cacheFile : Str)
    (h1 : (0x2F : Byte) ∉ c.wikiInstance ++ b!"." ++ c.host) (h2 : (0x3F : Byte) ∉ c.wikiInstance ++ b!"." ++ c.host) :
    Emits (AsksForTemplate c template) (evaluateTemplate c template cacheFile) := by
  have hurl : templateUrl c template = b!"https://" ++ (c.wikiInstance ++ b!"." ++ c.host) ++ (0x2F :: b!"w/api.php") ++
      0x3F :: (b!"action=expandtemplates&format=json&prop=wikitext&" ++ (b!"text" ++ b!"=" ++ queryEscape template)) := by
    unfold templateUrl
    simp
  obtain ⟨hh, hq⟩ := url_parts (path := b!"w/api.php")
    (q := b!"action=expandtemplates&format=json&prop=wikitext&" ++ (b!"text" ++ b!"=" ++ queryEscape template))
    h1 h2 (by decide)
  rw [← hurl] at hh hq
  have hpre : ∀ r : Str, (0x26 : Byte) ∉ r →
      split (b!"action=expandtemplates&format=json&prop=wikitext&" ++ r) b!"&" =
        [b!"action=expandtemplates", b!"format=json", b!"prop=wikitext"] ++ [r] := by
    intro r hr
    have : b!"action=expandtemplates&format=json&prop=wikitext&" ++ r =
        b!"action=expandtemplates" ++ 0x26 :: (b!"format=json" ++ 0x26 :: (b!"prop=wikitext" ++ 0x26 :: r)) := by simp
    rw [this, split_singleton_append _ (by decide), split_singleton_append _ (by decide),
      split_singleton_append _ (by decide), split_singleton_of_not_mem hr]
    rfl
  have hlast : (0x26 : Byte) ∉ (b!"text" ++ b!"=" ++ queryEscape template) := by
    simp only [List.mem_append, not_or]
    exact ⟨by decide, amp_not_in_queryEscape _⟩
  unfold evaluateTemplate readBytes
  refine .bind (.downloadAndCache _ _ _ ⟨rfl, rfl, hh, ?_, ?_, ?_, ?_⟩ fun _ => trivial) ?_
  · unfold queryParam; rw [hq]; exact formField_last hpre (by decide) (by decide)
  · unfold queryParam; rw [hq, formField_before hpre hlast (f := b!"action=expandtemplates") (by decide)]; decide
  · unfold queryParam; rw [hq, formField_before hpre hlast (f := b!"prop=wikitext") (by decide)]; decide
  · unfold queryParam; rw [hq, formField_before hpre hlast (f := b!"format=json") (by decide)]; decide
  · rintro ⟨path, b⟩
    exact .bind (.files _) fun bytes => .orErr _

/-- **C49** The form sent for a formula has the formula in display style as field `q`. -/
theorem C49_math_form (mathString : Str) :
    formField (mathRequestData mathString) b!"q" = some (b!"{\\displaystyle " ++ mathString ++ b!"}") := by
  have := formField_last (pre := []) (name := b!"q") (fields := [])
    (v := b!"{\\displaystyle " ++ mathString ++ b!"}") (by intro r hr; exact split_singleton_of_not_mem hr)
    (by simp) (by decide)
  simpa [mathRequestData] using this

/-- The first thing that happens when a request is sent. -/
theorem requestLoop_head (method url body : Str) (script : List Answer) :
    ∃ rest, (requestLoop method url body script).1 = .request method url body :: rest := by
  cases script with
  | nil => exact ⟨[], rfl⟩
  | cons x l =>
    cases x with
    | failed => exact ⟨[], rfl⟩
    | response r =>
      unfold requestLoop
      split
      · exact ⟨_, rfl⟩
      · split
        · exact ⟨_, rfl⟩
        · split <;> exact ⟨_, rfl⟩

/-- **C49** The id of a formula is asked for with a POST request to the configured server that contains exactly the
formula. (Repetitions after status 429 are sent without it, see C15.) -/
theorem C49_math_request (c : WikiConf) (mathString : Str) (env : WebEnv) (w : World) :
    ∃ body rest, (requestMathResource c mathString env w).2.events =
        w.events ++ .request b!"POST" (c.mathApi ++ b!"/check/tex") body :: rest ∧
      formField body b!"q" = some (b!"{\\displaystyle " ++ mathString ++ b!"}") := by
  refine ⟨mathRequestData mathString, ?_⟩
  obtain ⟨rest, hrest⟩ := requestLoop_head b!"POST" (c.mathApi ++ b!"/check/tex") (mathRequestData mathString) w.script
  have hE : ∀ r : Response, Emits (fun _ => False) (if r.location = [] then Web.throwErr else do
      let _ ← Web.files fun env now rnd => cacheToFile env mathFolder (c.sha1hex mathString) ⟨r.location, true⟩ rnd now
      pure r.location) := by
    intro r
    split
    · exact .throwErr
    · exact .bind (.files _) fun _ => .pure _
  have h0 : (postFormEncoded (c.mathApi ++ b!"/check/tex") (mathRequestData mathString) env w).2.events =
      w.events ++ .request b!"POST" (c.mathApi ++ b!"/check/tex") (mathRequestData mathString) :: rest := by
    rw [← hrest]; rfl
  rcases hp : postFormEncoded (c.mathApi ++ b!"/check/tex") (mathRequestData mathString) env w with ⟨out, w1⟩
  rw [hp] at h0
  refine ⟨rest, ?_, C49_math_form mathString⟩
  unfold requestMathResource
  cases out with
  | ok r =>
    rw [web_bind_ok hp]
    obtain ⟨new, e, hn⟩ := hE r env w1
    have : new = [] := List.eq_nil_iff_forall_not_mem.mpr fun x hx => hn x hx
    rw [e, this, List.append_nil, h0]
  | err => rw [web_bind_err hp]; exact h0
  | panic => rw [web_bind_panic hp]; exact h0
  | fatal => rw [web_bind_fatal hp]; exact h0
  | waiting => rw [web_bind_waiting hp]; exact h0

example : (0x2F : Byte) ∉ b!"en.wikipedia.org" ∧ (0x3F : Byte) ∉ b!"en.wikipedia.org" := by decide

/-! ## C50: formulas -/

variable (c : WikiConf) (env : WebEnv) (s : Str) (w : World)

/-- **C50** A formula whose id is in the cache and not too old is not sent to the server again. -/
theorem C50_known_formula (hv : ValidKey env.cache mathFolder (c.sha1hex s)) (hff : env.faults = noFaults) (f : File)
    (hmax : 0 ≤ env.cache.maxAge)
    (hg : w.fs.get (getFilePathInCache env.cache.cacheDir mathFolder (c.sha1hex s)) = some f)
    (hage : env.clock w.ops - f.mtime < (env.cache.maxAge + 1) * 60000000000) :
    (getMathResource c s env w).1 = .ok f.content ∧ (getMathResource c s env w).2.events = w.events := by
  have hl := C07_lookup_existing env.cache mathFolder (c.sha1hex s) (env.clock w.ops) w.ops w.fs hv f hmax hg
  obtain ⟨hr, hf⟩ := hl.1 hage
  have hrun : Web.files (fun e now _ => getFile e mathFolder (c.sha1hex s) now) env w =
      (.ok (getFilePathInCache env.cache.cacheDir mathFolder (c.sha1hex s), true), { w with
        fs := (getFile env.cache mathFolder (c.sha1hex s) (env.clock w.ops) noFaults w.ops w.fs).fs,
        ops := (getFile env.cache mathFolder (c.sha1hex s) (env.clock w.ops) noFaults w.ops w.fs).step }) := by
    unfold Web.files
    simp only [hff, hr]
    rfl
  unfold getMathResource
  rw [web_bind_ok (web_attempt_ok hrun)]
  have hno : ∀ k, noFaults k = false := fun _ => rfl
  simp only [readBytes, Web.files, FsM.readFile, FsM.prim, hff, hno, Bool.false_eq_true, if_false, hf, Web.ofRes,
    and_self]

theorem requestMathResource_inv {name : Str} {w' : World} (h : requestMathResource c s env w = (.ok name, w')) :
    ∃ resp w1, postFormEncoded (c.mathApi ++ b!"/check/tex") (mathRequestData s) env w = (.ok resp, w1) ∧
      resp.location = name ∧ name ≠ [] ∧
      ∃ p, Web.files (fun e now rnd => cacheToFile e mathFolder (c.sha1hex s) ⟨name, true⟩ rnd now) env w1 =
        (.ok p, w') := by
  unfold requestMathResource at h
  obtain ⟨resp, w1, h1, h2⟩ := web_bind_inv h
  by_cases hl : resp.location = []
  · rw [if_pos hl] at h2; cases h2
  · rw [if_neg hl] at h2
    obtain ⟨p, w2, h3, h4⟩ := web_bind_inv h2
    cases h4
    exact ⟨resp, w1, h1, rfl, hl, p, h3⟩

/-- **C50** A formula for which the server delivered an id is not sent again: the id is taken from the cache
as long as the entry is not too old. -/
theorem C50_formula_asked_once (hv : ValidKey env.cache mathFolder (c.sha1hex s)) (hff : env.faults = noFaults)
    (hw : WalkOk env.cache) (hr : ∀ k, Digits (env.rnd k)) (hwf : w.fs.WF) (hmax : 0 ≤ env.cache.maxAge)
    {name : Str} {w' : World} (h : requestMathResource c s env w = (.ok name, w'))
    (hclock : env.clock w'.ops - env.clock w.ops < (env.cache.maxAge + 1) * 60000000000) :
    (getMathResource c s env w').1 = .ok name ∧ (getMathResource c s env w').2.events = w'.events := by
  obtain ⟨resp, w1, h1, -, -, p, h3⟩ := requestMathResource_inv c env s w h
  have hfs : w1.fs = w.fs := by
    have : (postFormEncoded (c.mathApi ++ b!"/check/tex") (mathRequestData s) env w).2.fs = w.fs := rfl
    rw [h1] at this; exact this
  have hops : w1.ops = w.ops := by
    have : (postFormEncoded (c.mathApi ++ b!"/check/tex") (mathRequestData s) env w).2.ops = w.ops := rfl
    rw [h1] at this; exact this
  unfold Web.files at h3
  obtain ⟨e1, e2⟩ := Prod.mk.inj h3
  have hres : (cacheToFile env.cache mathFolder (c.sha1hex s) ⟨name, true⟩ (env.rnd w1.ops) (env.clock w1.ops)
      env.faults w1.ops w1.fs).res = .ok p := by
    cases hx : (cacheToFile env.cache mathFolder (c.sha1hex s) ⟨name, true⟩ (env.rnd w1.ops) (env.clock w1.ops)
      env.faults w1.ops w1.fs).res with
    | ok q => rw [hx] at e1; cases e1; rfl
    | err => rw [hx] at e1; cases e1
    | panic => rw [hx] at e1; cases e1
    | fatal => rw [hx] at e1; cases e1
  obtain ⟨c1, c2, c3, -⟩ := C01_write_success _ _ _ _ _ _ _ _ _ hw hv (hr _) (by rw [hfs]; exact hwf) _ hres
  have hg : w'.fs.get (getFilePathInCache env.cache.cacheDir mathFolder (c.sha1hex s)) =
      some ⟨name, env.clock w1.ops⟩ := by
    rw [← e2, ← c1]; exact c3
  exact C50_known_formula c env s w' hv hff _ hmax hg (by rw [hops]; exact hclock)

/-- **C50** If the server sends no id, rendering fails and nothing is stored. -/
theorem C50_no_id_is_an_error {resp : Response} {w1 : World}
    (h : postFormEncoded (c.mathApi ++ b!"/check/tex") (mathRequestData s) env w = (.ok resp, w1))
    (hl : resp.location = []) : requestMathResource c s env w = (.err, w1) ∧ w1.fs = w.fs := by
  refine ⟨?_, ?_⟩
  · unfold requestMathResource
    rw [web_bind_ok h, if_pos hl]
    rfl
  · have : (postFormEncoded (c.mathApi ++ b!"/check/tex") (mathRequestData s) env w).2.fs = w.fs := rfl
    rw [h] at this; exact this

/-- A run: the formula is sent once, then the id comes from the cache. -/
example :
    let r := getMathResource (demoConf []) b!"x^2" (demoWebBig ⟨true, none⟩)
      ⟨[], 0, [], [.response ⟨200, [], [], b!"id17", ⟨[], true⟩⟩]⟩
    let r' := getMathResource (demoConf []) b!"x^2" (demoWebBig ⟨true, none⟩) r.2
    r.1 = .ok b!"id17" ∧ r'.1 = .ok b!"id17" ∧ r.2.events.length = 1 ∧ r'.2.events = r.2.events := by
  decide +kernel

end Verif.Props
