import Verif.Lemmas.TokenizeSteps
import Verif.Props.Answers
import Verif.Props.FailedRequests
import Verif.Props.Regenerate

/-!
# From the answers of the servers to the page (C78)
-/

namespace Verif.Props
open Verif.Go Verif.Model Verif.Spec Verif.Lemmas FSl
open scoped List

/-- Every formula has a picture: those that failed get one without attributes. -/
def withAllPictures (html : HtmlEnv) : HtmlEnv where
  conf := html.conf
  math formula :=
    match html.math formula with
    | .ok picture => .ok picture
    | _ => .ok ([], [], [], [])

theorem withAllPictures_rendered (html : HtmlEnv) (l : RichLine) : Rendered (withAllPictures html) l := by
  intro r _ p _ attributes formula _
  simp only [withAllPictures]
  split
  · exact ⟨_, rfl⟩
  · exact ⟨_, rfl⟩

theorem withAllPictures_picture (html : HtmlEnv) : formulaPicture (withAllPictures html) = formulaPicture html := by
  funext formula
  have he : escapePathComponents [] = [] := by decide
  unfold formulaPicture withAllPictures
  simp only
  generalize html.math formula = r
  rcases r with ⟨path, width, height, style⟩ | _ | _ | _ <;> simp only [he]

mutual
theorem tree_wellFormed_imp {α : Type} {p q : ListMark → α → Prop} (h : ∀ c a, p c a → q c a) :
    (t : TreeList α) → t.WellFormed p → t.WellFormed q
  | .mk m items, hw => by
    rw [TreeList.WellFormed] at hw ⊢
    exact ⟨hw.1, treeItems_wellFormed_imp h m true items hw.2⟩
theorem treeItems_wellFormed_imp {α : Type} {p q : ListMark → α → Prop} (h : ∀ c a, p c a → q c a) (m : ListMark) (first : Bool) :
    (l : List (TreeItem α)) → treeItemsWellFormed p m first l → treeItemsWellFormed q m first l
  | [], _ => by rw [treeItemsWellFormed]; trivial
  | .mk c text subLists :: rest, hw => by
    rw [treeItemsWellFormed] at hw ⊢
    exact ⟨hw.1, h _ _ hw.2.1, trees_wellFormed_imp h subLists hw.2.2.1, treeItems_wellFormed_imp h m false rest hw.2.2.2⟩
theorem trees_wellFormed_imp {α : Type} {p q : ListMark → α → Prop} (h : ∀ c a, p c a → q c a) :
    (l : List (TreeList α)) → treesWellFormed p l → treesWellFormed q l
  | [], _ => by rw [treesWellFormed]; trivial
  | l :: rest, hw => by
    rw [treesWellFormed] at hw ⊢
    exact ⟨tree_wellFormed_imp h l hw.1, hw.2.1, trees_wellFormed_imp h rest hw.2.2⟩
end

theorem document_allLines {env : ParserEnv} {p : RichLine → Prop} (hp : ∀ l, p l) {doc : List (Nat × DocBlock)} (h : DocOk env doc) :
    ∀ b ∈ doc, b.2.AllLines p := by
  intro b hb
  have hw := h.blocks b hb
  obtain ⟨n, b⟩ := b
  cases b with
  | heading => exact hp _
  | paragraph => exact fun l _ => hp l
  | list l => exact tree_wellFormed_imp (fun _ _ _ => hp _) l hw
  | image => trivial
  | table t =>
    refine ⟨hw.1.attributes, fun _ _ => hp _, fun r hr => ⟨(hw.1.rows r hr).1, (hw.1.rows r hr).2.1, fun l hl => ?_⟩, hw.1.separators⟩
    exact ⟨fun c hc => ⟨(((hw.1.rows r hr).2.2 l hl).1 c hc).1, fun _ _ => hp _⟩, ((hw.1.rows r hr).2.2 l hl).2⟩
  | references => trivial
  | gap => trivial

/-- Whatever fails and however many steps it takes: a page of an article that is cleaned, evaluated and cleaned again is the right one. -/
theorem page_of_steps (env : ParserEnv) (hp : PlainPrefixes env) (c : WikiConf) (doc : List (Nat × DocBlock)) (h : DocOk env doc) {source s x : Str}
    (k k'' : Nat) (h1 : ∀ fuel, k ≤ fuel → cleanText env fuel source = some (.ok s))
    (h3 : ∀ fuel, k'' ≤ fuel → cleanText env fuel x = some (.ok (join b!"\n" (documentSource doc)))) :
    ∃ steps, ∀ fuel, steps ≤ fuel → ∀ (templates : TemplateEnv) (iterate : Nat → List (Str × Str) → List (Str × Str)) (html : HtmlEnv)
      (style title page : Str),
      (∀ formula, (∃ picture, html.math formula = .ok picture) ∨ html.math formula = .err) →
      (∃ k' calls, ∀ fuel, k' ≤ fuel → evaluateTemplates templates iterate fuel s = some (.ok (x, calls))) →
      articleHtml env templates iterate html fuel style title source = some (.ok page) →
      page = htmlHeader style ++ b!"\n<h1>" ++ title ++ b!"</h1>\n" ++
          join b!"\n" (documentHtml ⟨ArticleImage.html env (imageSource html), formulaPicture html⟩ false doc) ++ htmlFooter := by
  have hstart : KeysCreated TokState.initial := by simp [KeysCreated, TokState.initial]
  obtain ⟨text, t, ⟨k1, ht⟩, -⟩ := tokenize_document env (withAllPictures ⟨c, fun _ => .err⟩) hp doc h
    (document_allLines (withAllPictures_rendered _) h) TokState.initial hstart
  refine ⟨k + k'' + k1, fun fuel hf templates iterate html style title page hfail ⟨k', calls, h2⟩ hpage => ?_⟩
  obtain ⟨text', t', ⟨k1', ht'⟩, k2, hx⟩ := tokenize_document env (withAllPictures html) hp doc h
    (document_allLines (withAllPictures_rendered _) h) TokState.initial hstart
  have hsame : some (Res.ok (text, t)) = some (Res.ok (text', t')) := by
    rw [← ht (k1 + k1') (by omega), ← ht' (k1 + k1') (by omega)]
  cases hsame
  have hpage' : articleHtml env templates iterate (withAllPictures html) fuel style title source = some (.ok page) := by
    have hm : MathMayFail html (withAllPictures html) := ⟨rfl, fun formula => by
      rcases hfail formula with ⟨picture, e⟩ | e
      · simp only [withAllPictures, e]; exact .inl trivial
      · exact .inr e⟩
    rcases C76_failures_give_no_other_page env templates templates iterate html (withAllPictures html) ⟨rfl, fun _ _ => .inl rfl⟩
      hm fuel style title source with e | e
    · rw [← e]; exact hpage
    · rw [hpage] at e; cases e
  rw [articleHtml, tokenizeArticle, h1 fuel (by omega)] at hpage'
  simp only at hpage'
  generalize he : evaluateTemplates templates iterate fuel s = r at hpage'
  rcases r with _ | r
  · cases hpage'
  · have he' := evaluateTemplates_mono templates iterate (Nat.le_add_right fuel k') he
    rw [h2 (fuel + k') (by omega)] at he'
    cases he'
    simp only [h3 fuel (by omega), ht fuel (by omega)] at hpage'
    have hl := later_expandString (withAllPictures html) t.tokenMap fuel (fuel + k2) (by omega) text
    rw [hx (fuel + k2) (by omega)] at hl
    rcases hl with hl | hl
    · rw [generateHtml, hl] at hpage'
      cases hpage'
    · rw [generateHtml, hl] at hpage'
      have := Res.ok.inj (Option.some.inj hpage')
      rw [← this, ← withAllPictures_picture html]
      rfl

theorem cachedMath_fails (decode : Str → Option SvgAttributes) (c : WikiConf) (dir : Str) (fs : FS) (formula : Str) :
    (∃ picture, (cachedMath decode c dir fs).math formula = .ok picture) ∨ (cachedMath decode c dir fs).math formula = .err := by
  simp only [cachedMath]
  split
  · exact .inl ⟨_, rfl⟩
  · exact .inr rfl

/-- When the wiki has sent an article and the answers for its templates, and the program has made a page, then this page is the HTML of
the article, with the requested title as heading, each template replaced by its answer and each formula by its picture in the cache. -/
theorem C78_page_shows_what_the_wiki_sent_partial (env : ParserEnv) (hp : PlainPrefixes env) (c : WikiConf) (hs : SumsUsable c)
    (hhex : ∀ t, ∀ b ∈ c.sha1hex t, b ∈ b!"0123456789abcdef") (hda : c.decodeArticle = unmarshalArticle) (hdt : c.decodeTemplate = unmarshalTemplate)
    (hconv : c.mathConverter ≠ .template) (hh : c.imageArticleHosts ≠ []) (decode : Str → Option SvgAttributes)
    (iterate : Nat → List (Str × Str) → List (Str × Str)) (hit : ∀ n m, (iterate n m).Perm m) (style article : Str)
    (e : WebEnv) (hu : FirstRun e) (w : World) (hwf : w.fs.WF) (hage : NothingOutdated e w.fs)
    -- the article is not in the cache, the wiki sends it
    (hnu : NotUsable e b!"articles" (underscores article ++ b!".json") w) (resp : Response)
    (hresp : (doRequest b!"GET" (articleUrl (c.wikiInstance ++ b!"." ++ c.host) article) [] e w).1 = .ok resp)
    (json : JsonVal) (hj : JsonText json resp.body.bytes) (hn : nesting json ≤ 10000) (name : Str)
    (parts : List SourcePart) (hsent : ArticleAnswer name (sourceText parts) json)
    (d : TemplateText) (written all lines : List Str) (ha : CleanedArticle env parts d written all lines)
    -- its templates
    (text : NestedText) (htext : text.text = join b!"\n" lines) (hw : text.WellFormed [])
    (hinj : ∀ t ∈ text.templates, ∀ t' ∈ text.templates,
      c.sha1hex (t.request c.sha1hex) = c.sha1hex (t'.request c.sha1hex) → t.request c.sha1hex = t'.request c.sha1hex)
    -- the article with the answers
    (answer : Str → Str) (parts' : List SourcePart)
    (hx : Resolved (text.templates.map fun t => (c.sha1hex (t.request c.sha1hex), answer (t.request c.sha1hex)))
      (text.holed c.sha1hex) (sourceText parts'))
    (hc : ¬ b!"TEMPLATE_PLACEHOLDER_" <:+: sourceText parts')
    (hw' : ∀ p ∈ parts', p.WellFormed (linkRules env) fun name => IsIgnored env name = true ∧ IsTrailing env name = false)
    (hpl : WellPlaced parts') (doc : List (Nat × DocBlock)) (h : DocOk env doc)
    (all' : List Str) (ha' : WithEmptySections (HeadingOfArticle env) (documentSource doc) all')
    (written' : List Str) (hl : WrittenLines all' written') (hk : keptText parts' = join b!"\n" written') :
    ∀ fuel page w',
      articleRun env c decode e.cache.cacheDir iterate fuel style article e w = some (.ok page, w') →
      (∀ text s w1, parseRun env c iterate fuel article e w = some (.ok (text, s), w1) →
        ∀ image ∈ s.images, ∃ name, NamedBy image name ∧ name ∉ [b!"", b!".", b!".."]) →
      (∀ t ∈ text.templates, ∃ bytes answerJson, cachedBytes e.cache.cacheDir w'.fs b!"templates" (c.sha1hex (t.request c.sha1hex)) = some bytes ∧
        JsonText answerJson bytes ∧ nesting answerJson ≤ 10000 ∧ TemplateAnswer (answer (t.request c.sha1hex)) answerJson) →
      page = htmlHeader style ++ b!"\n<h1>" ++ article ++ b!"</h1>\n" ++
        join b!"\n" (documentHtml ⟨ArticleImage.html env (imageSource (cachedMath decode c e.cache.cacheDir w'.fs)),
          formulaPicture (cachedMath decode c e.cache.cacheDir w'.fs)⟩ false doc) ++ htmlFooter := by
  obtain ⟨steps, hsteps⟩ := page_of_steps env hp c doc h (source := sourceText parts) (x := sourceText parts') ((join b!"\n" lines).length + 1)
    ((join b!"\n" (documentSource doc)).length + 1) (fun fuel hf => clean_article ha fuel (by omega))
    (fun fuel hf => clean_hidden env doc h parts' hw' hpl all' ha' written' hl hk fuel (by omega))
  intro fuel page w' hrun hnames hans
  obtain ⟨dto, w1, bytes, g1, -, -, -, g2⟩ := run_leaves env c hs hconv hh decode iterate fuel style article e hu w w' hwf hage hnames page hrun
  obtain ⟨resp', e1, e2⟩ := C74_article_is_the_one_of_the_answer c hda e _ article w w1 dto hu.dir hu.faults hu.walk hu.digits hwf hu.age hnu g1
  rw [hresp] at e1
  cases e1
  rw [e2 json name _ hj hn hsent] at g2
  refine hsteps (fuel + steps) (by omega) (cachedTemplates c e.cache.cacheDir w'.fs) iterate _ style article page (cachedMath_fails decode c _ _) ?_
    ((later_articleHtml env _ iterate _ fuel (fuel + steps) (by omega) _ _ _).eq_some g2)
  obtain ⟨k', he⟩ := evaluate_resolved (cachedTemplates c e.cache.cacheDir w'.fs) text hw hhex hinj answer (fun t ht => by
    obtain ⟨b, j, b1, b2, b3, b4⟩ := hans t ht
    have : c.decodeTemplate b = some (answer (t.request c.sha1hex)) := by rw [hdt]; exact unmarshalTemplate_answer b2 b3 b4
    show (match (cachedBytes e.cache.cacheDir w'.fs b!"templates" (c.sha1hex (t.request c.sha1hex))).bind c.decodeTemplate with
      | some text => Res.ok text
      | none => .err) = _
    rw [b1, Option.bind_some, this]
    rfl) _ hx hc iterate hit
  rw [htext] at he
  exact ⟨k', _, he⟩

/-- If everything that an article needs is in the cache, the program makes the page of this article, without any request: the HTML of the
article in the cache, with each template replaced by its answer and each formula by its picture. -/
theorem C78_page_of_the_article_in_the_cache_partial (env : ParserEnv) (hp : PlainPrefixes env) (c : WikiConf) (hs : SumsUsable c)
    (hhex : ∀ t, ∀ b ∈ c.sha1hex t, b ∈ b!"0123456789abcdef") (hda : c.decodeArticle = unmarshalArticle) (hdt : c.decodeTemplate = unmarshalTemplate)
    (host : Str) (hosts : List Str) (hh : c.imageArticleHosts = host :: hosts) (decode : Str → Option SvgAttributes)
    (iterate : Nat → List (Str × Str) → List (Str × Str)) (hit : ∀ n m, (iterate n m).Perm m) (style article : Str)
    (e : WebEnv) (w : World) (hff : e.faults = noFaults) (hmax : 0 ≤ e.cache.maxAge) (hd : (cleanElems e.cache.cacheDir).getLast? ≠ some b!".tmp")
    (hage : NothingOutdated e w.fs)
    -- the article
    (bytes : Str) (hbytes : cachedBytes e.cache.cacheDir w.fs b!"articles" (underscores article ++ b!".json") = some bytes)
    (json : JsonVal) (hj : JsonText json bytes) (hn : nesting json ≤ 10000) (name : Str)
    (parts : List SourcePart) (hsent : ArticleAnswer name (sourceText parts) json)
    (d : TemplateText) (written all lines : List Str) (ha : CleanedArticle env parts d written all lines)
    -- its templates
    (text : NestedText) (htext : text.text = join b!"\n" lines) (hw : text.WellFormed [])
    (hinj : ∀ t ∈ text.templates, ∀ t' ∈ text.templates,
      c.sha1hex (t.request c.sha1hex) = c.sha1hex (t'.request c.sha1hex) → t.request c.sha1hex = t'.request c.sha1hex)
    (answer : Str → Str)
    (hans : ∀ t ∈ text.templates, ∃ bytes answerJson, cachedBytes e.cache.cacheDir w.fs b!"templates" (c.sha1hex (t.request c.sha1hex)) = some bytes ∧
        JsonText answerJson bytes ∧ nesting answerJson ≤ 10000 ∧ TemplateAnswer (answer (t.request c.sha1hex)) answerJson)
    -- the article with the answers
    (parts' : List SourcePart)
    (hx : Resolved (text.templates.map fun t => (c.sha1hex (t.request c.sha1hex), answer (t.request c.sha1hex)))
      (text.holed c.sha1hex) (sourceText parts'))
    (hc : ¬ b!"TEMPLATE_PLACEHOLDER_" <:+: sourceText parts')
    (hw' : ∀ p ∈ parts', p.WellFormed (linkRules env) fun name => IsIgnored env name = true ∧ IsTrailing env name = false)
    (hpl : WellPlaced parts') (doc : List (Nat × DocBlock)) (h : DocOk env doc)
    (all' : List Str) (ha' : WithEmptySections (HeadingOfArticle env) (documentSource doc) all')
    (written' : List Str) (hl : WrittenLines all' written') (hk : keptText parts' = join b!"\n" written')
    -- its formulas and images
    (hm : ∀ b ∈ doc, b.2.AllLines (Rendered (cachedMath decode c e.cache.cacheDir w.fs)))
    (himages : ∀ fuel content s, tokenizeArticle env (cachedTemplates c e.cache.cacheDir w.fs) iterate fuel (sourceText parts) = some (.ok (content, s)) →
      ∀ image ∈ s.images, ImageCached c e.cache.cacheDir w.fs image) :
    ∃ steps, ∀ fuel, steps ≤ fuel → ∃ w',
      articleRun env c decode e.cache.cacheDir iterate fuel style article e w = some (.ok (htmlHeader style ++ b!"\n<h1>" ++ article ++ b!"</h1>\n" ++
        join b!"\n" (documentHtml ⟨ArticleImage.html env (imageSource (cachedMath decode c e.cache.cacheDir w.fs)),
          formulaPicture (cachedMath decode c e.cache.cacheDir w.fs)⟩ false doc) ++ htmlFooter), w') ∧ w'.events = w.events := by
  obtain ⟨steps, hsteps⟩ := C69_templates_become_their_answers_partial env hp (cachedTemplates c e.cache.cacheDir w.fs) hhex iterate hit
    (cachedMath decode c e.cache.cacheDir w.fs) style article parts d written all lines ha text htext hw hinj answer (fun t ht => by
    obtain ⟨b, j, b1, b2, b3, b4⟩ := hans t ht
    have : c.decodeTemplate b = some (answer (t.request c.sha1hex)) := by rw [hdt]; exact unmarshalTemplate_answer b2 b3 b4
    show (match (cachedBytes e.cache.cacheDir w.fs b!"templates" (c.sha1hex (t.request c.sha1hex))).bind c.decodeTemplate with
      | some text => Res.ok text
      | none => .err) = _
    rw [b1, Option.bind_some, this]
    rfl) parts' hx hc hw' hpl doc h hm all' ha' written' hl hk
  refine ⟨steps, fun fuel hf => ?_⟩
  obtain ⟨w', h1, h2, -⟩ := C77_page_from_the_cache env c hs decode iterate fuel style article e w hff hmax hd hage host hosts hh bytes name
    (sourceText parts) _ hbytes (by rw [hda]; exact unmarshalArticle_answer hj hn hsent) (himages fuel) (hsteps fuel hf)
  exact ⟨w', h1, h2⟩

/-! ### Examples -/

/-- A wiki with real answers. -/
def walkConf : WikiConf := { demoConf [b!"commons"] with decodeArticle := unmarshalArticle, decodeTemplate := unmarshalTemplate }

/-- The answer of the wiki for an article with a template. -/
def walkAnswer : JsonVal :=
  .obj (.cons b!"parse" (.obj (.cons b!"title" (.str b!"A b") (.cons b!"wikitext" (.obj (.cons b!"*" (.str b!"Walk {{n}} km.") .nil)) .nil))) .nil)

def walkText : Str := b!"{\"parse\":{\"title\":\"A b\",\"wikitext\":{\"*\":\"Walk {{n}} km.\"}}}"

/-- The answer for the template. -/
def walkTemplate : JsonVal := .obj (.cons b!"expandtemplates" (.obj (.cons b!"wikitext" (.str b!"3") .nil)) .nil)

def walkTemplateText : Str := b!"{\"expandtemplates\":{\"wikitext\":\"3\"}}"

theorem walk_json : JsonText walkAnswer walkText := by
  have hb : Blank [] := by intro c hc; cases hc
  have inner : ValueText (.obj (.cons b!"*" (.str b!"Walk {{n}} km.") .nil)) b!"{\"*\":\"Walk {{n}} km.\"}" := by
    rw [ValueText]
    refine ⟨b!"\"*\":\"Walk {{n}} km.\"", rfl, ?_⟩
    rw [MembersText]
    refine ⟨[], b!"\"*\"", [], [], b!"\"Walk {{n}} km.\"", [], rfl, hb, stringText_ascii (by decide) (by decide), hb, hb, ?_, hb⟩
    rw [ValueText]
    exact stringText_ascii (by decide) (by decide)
  have parse : ValueText (.obj (.cons b!"title" (.str b!"A b") (.cons b!"wikitext" (.obj (.cons b!"*" (.str b!"Walk {{n}} km.") .nil)) .nil)))
      b!"{\"title\":\"A b\",\"wikitext\":{\"*\":\"Walk {{n}} km.\"}}" := by
    rw [ValueText]
    refine ⟨b!"\"title\":\"A b\",\"wikitext\":{\"*\":\"Walk {{n}} km.\"}", rfl, ?_⟩
    rw [MembersText]
    refine ⟨[], b!"\"title\"", [], [], b!"\"A b\"", [], b!"\"wikitext\":{\"*\":\"Walk {{n}} km.\"}", rfl, hb,
      stringText_ascii (by decide) (by decide), hb, hb, ?_, hb, ?_⟩
    · rw [ValueText]
      exact stringText_ascii (by decide) (by decide)
    · rw [MembersText]
      exact ⟨[], b!"\"wikitext\"", [], [], _, [], rfl, hb, stringText_ascii (by decide) (by decide), hb, hb, inner, hb⟩
  refine ⟨[], walkText, [], by simp, hb, ?_, hb⟩
  unfold walkAnswer
  rw [ValueText]
  refine ⟨b!"\"parse\":{\"title\":\"A b\",\"wikitext\":{\"*\":\"Walk {{n}} km.\"}}", rfl, ?_⟩
  rw [MembersText]
  exact ⟨[], b!"\"parse\"", [], [], _, [], rfl, hb, stringText_ascii (by decide) (by decide), hb, hb, parse, hb⟩

theorem walk_answer : ArticleAnswer b!"A b" b!"Walk {{n}} km." walkAnswer := by
  refine ⟨_, _, _, rfl, ⟨[], [], rfl, by simp⟩, ⟨[], [_], rfl, ?_⟩, ⟨[_], [], rfl, ?_⟩, ⟨[], [], rfl, by simp⟩, ?_⟩
  · intro m hm
    simp only [List.nil_append, List.mem_cons, List.not_mem_nil, or_false] at hm
    rcases hm with rfl
    exact ⟨by decide, by decide⟩
  · intro m hm
    simp only [List.append_nil, List.mem_cons, List.not_mem_nil, or_false] at hm
    rcases hm with rfl
    exact ⟨by decide, by decide⟩
  · intro m hm
    simp only [memberList, List.mem_cons, List.not_mem_nil, or_false] at hm
    rcases hm with rfl | rfl
    · exact ⟨by decide, by decide⟩
    · exact ⟨by decide, by decide⟩

theorem walk_template_json : JsonText walkTemplate walkTemplateText := by
  have hb : Blank [] := by intro c hc; cases hc
  refine ⟨[], walkTemplateText, [], by simp, hb, ?_, hb⟩
  unfold walkTemplate
  rw [ValueText]
  refine ⟨b!"\"expandtemplates\":{\"wikitext\":\"3\"}", rfl, ?_⟩
  rw [MembersText]
  refine ⟨[], b!"\"expandtemplates\"", [], [], b!"{\"wikitext\":\"3\"}", [], rfl, hb, stringText_ascii (by decide) (by decide), hb, hb, ?_, hb⟩
  rw [ValueText]
  refine ⟨b!"\"wikitext\":\"3\"", rfl, ?_⟩
  rw [MembersText]
  refine ⟨[], b!"\"wikitext\"", [], [], b!"\"3\"", [], rfl, hb, stringText_ascii (by decide) (by decide), hb, hb, ?_, hb⟩
  rw [ValueText]
  exact stringText_ascii (by decide) (by decide)

theorem walk_template_answer : TemplateAnswer b!"3" walkTemplate := ⟨_, _, rfl, ⟨[], [], rfl, by simp⟩, ⟨[], [], rfl, by simp⟩⟩

def walkSource : TemplateText := templateChars b!"Walk " (.template [] b!"n" .nil (templateChars b!" km." .nil))

def walkNested : NestedText := nestedChars b!"Walk " (.template (nestedChars b!"n" .nil) (nestedChars b!" km." .nil))

def walkLines : List Str := [b!"Walk {{n}} km."]

def walkDoc : List (Nat × DocBlock) := [(0, .paragraph [[⟨none, [.text b!"Walk 3 km."]⟩]])]

theorem walk_cleaned : CleanedArticle exampleEnv [.shown b!"Walk {{n}} km."] walkSource walkLines walkLines walkLines where
  hidden := by simp [SourcePart.WellFormed]
  noSwitch := by simp
  placed := placed_of_test (by decide +kernel)
  kept := by decide +kernel
  comments := by decide +kernel
  links := by
    have : ∀ (t : Str) (q : Str → Prop), (charsThen t .nil).AllLinks q := by
      intro t q
      induction t with
      | nil => trivial
      | cons c t ih => exact ih
    exact ⟨charsThen walkSource.text .nil, by rw [charsThen_text]; simp [LinkText.text], charsThen_ok (by decide +kernel) trivial, this _ _⟩
  templates := templateChars_ok (by decide) (template_ok ⟨_, _, rfl, by decide⟩ (by decide) ⟨_, _, rfl, by decide⟩ trivial (templateChars_ok (by decide) trivial))
  names := by decide +kernel
  trailing := by decide +kernel
  switches := ⟨[b!"Walk {{n}} km."], by decide +kernel, by decide +kernel, by decide +kernel⟩
  trimmed := by
    have hno : Padding [] := by simp [Padding]
    exact .line [] b!"Walk {{n}} km." [] _ _ hno hno .nil
  clean := ⟨by simp [walkLines], by decide +kernel, by decide +kernel⟩
  entries := by decide +kernel
  removed := withEmptySections_refl _ _
  sections := sections_of_test (by decide +kernel)
  railway := by decide +kernel

theorem walkNested_ok : walkNested.WellFormed [] :=
  nestedChars_ok (by decide) ⟨nestedChars_ok (by decide) trivial, nestedChars_ok (by decide) trivial⟩

theorem walkDoc_ok : DocOk exampleEnv walkDoc := by
  have htext : (Inline.text b!"Walk 3 km.").WellFormed exampleEnv := text_of (by decide +kernel : TextTest b!"Walk 3 km.")
  refine ⟨by simp [walkDoc], ?_, by simp [walkDoc, BlocksFollow], trivial, ?_, by simp [walkDoc]⟩
  · simp only [walkDoc, List.mem_cons, List.not_mem_nil, or_false, forall_eq, DocBlock.WellFormed]
    refine ⟨by simp, rich_of ?_ (by simp [RunsSeparated]) (by decide +kernel), by decide, by decide +kernel⟩
    simp [Run.WellFormed, htext]
  · simp [walkDoc, DocBlock.texts, NoReferences, lineRefs]

def walkPage : Str := htmlHeader b!"s.css" ++ b!"\n<h1>A b</h1>\nWalk 3 km." ++ htmlFooter

/-- The article and the answer for the template in the cache. -/
def walkCache : World := ⟨[(b!"/c/articles/A_b.json", ⟨walkText, 100⟩), (b!"/c/templates/cd", ⟨walkTemplateText, 100⟩)], 0, [], []⟩

theorem walk_images (fuel : Nat) (content : Str) (s : TokState)
    (h : tokenizeArticle exampleEnv (cachedTemplates walkConf b!"/c" walkCache.fs) (fun _ l => l) fuel b!"Walk {{n}} km." = some (.ok (content, s))) :
    s.images = [] := by
  have h100 : ((tokenizeArticle exampleEnv (cachedTemplates walkConf b!"/c" walkCache.fs) (fun _ l => l) 100
    b!"Walk {{n}} km.").map fun r => match r with | .ok p => some p.2.images | _ => none) = some (some []) := by decide +kernel
  have h1 := (later_tokenizeArticle exampleEnv (cachedTemplates walkConf b!"/c" walkCache.fs) (fun _ l => l) fuel (fuel + 100) (by omega) _).eq_some h
  rw [Option.map_eq_some_iff] at h100
  obtain ⟨r, hr, e⟩ := h100
  have h2 := (later_tokenizeArticle exampleEnv (cachedTemplates walkConf b!"/c" walkCache.fs) (fun _ l => l) 100 (fuel + 100) (by omega) _).eq_some hr
  rw [h1] at h2
  cases h2
  simpa using e

/-- The document of the article has no formulas. -/
theorem walkDoc_rendered (html : HtmlEnv) : ∀ b ∈ walkDoc, b.2.AllLines (Rendered html) := by
  simp only [walkDoc, List.mem_cons, List.not_mem_nil, or_false, forall_eq, DocBlock.AllLines]
  intro r hr p hp attributes formula e
  simp only [List.mem_cons, List.not_mem_nil, or_false] at hr
  subst hr
  simp only [List.mem_cons, List.not_mem_nil, or_false] at hp
  subst hp
  cases e

/-- The article with the answer. -/
theorem walk_resolved : Resolved (walkNested.templates.map fun t => (walkConf.sha1hex (t.request walkConf.sha1hex), b!"3"))
    (walkNested.holed walkConf.sha1hex) (sourceText [.shown b!"Walk 3 km."]) := by
  have := resolved_chars (answers := [(b!"cd", b!"3")]) b!"Walk " (.hole (inner := b!"3".map .char) b!"cd" (by decide +kernel)
    (by simpa using resolved_chars b!"3" .nil) (resolved_chars b!" km." .nil))
  exact this

theorem walk_sums : SumsUsable walkConf := ⟨fun _ => show b!"cd" ∉ _ by decide, fun _ => show 2 ≤ b!"ab".length by decide⟩

theorem walk_kept : keptText [.shown b!"Walk 3 km."] = join b!"\n" [b!"Walk 3 km."] := by decide +kernel

theorem walk_written : WrittenLines (documentSource walkDoc) [b!"Walk 3 km."] := by
  have hno : Padding [] := by simp [Padding]
  exact .line [] b!"Walk 3 km." [] _ _ hno hno .nil

/-- There is only one template. -/
theorem walk_one : ∀ t ∈ walkNested.templates, ∀ t' ∈ walkNested.templates,
    walkConf.sha1hex (t.request walkConf.sha1hex) = walkConf.sha1hex (t'.request walkConf.sha1hex) →
    t.request walkConf.sha1hex = t'.request walkConf.sha1hex := by
  have h : ∀ t ∈ walkNested.templates, t.request walkConf.sha1hex = b!"{{n}}" := by decide +kernel
  intro t ht t' ht' _
  rw [h t ht, h t' ht']

/-- The answer for the template, as it is in the cache. -/
theorem walk_answers {fs : FS} (hc : cachedBytes b!"/c" fs b!"templates" b!"cd" = some walkTemplateText) :
    ∀ t ∈ walkNested.templates, ∃ bytes answerJson, cachedBytes b!"/c" fs b!"templates" (walkConf.sha1hex (t.request walkConf.sha1hex)) = some bytes ∧
      JsonText answerJson bytes ∧ nesting answerJson ≤ 10000 ∧ TemplateAnswer b!"3" answerJson :=
  fun _ _ => ⟨_, _, hc, walk_template_json, by decide, walk_template_answer⟩

/-- All hypotheses of the second theorem are met: the article is in the cache, and the page is made from it. -/
example : ∃ steps, ∀ fuel, steps ≤ fuel → ∃ w',
    articleRun exampleEnv walkConf demoDecode b!"/c" (fun _ l => l) fuel b!"s.css" b!"A b" (demoWebBig ⟨true, none⟩) walkCache = some (.ok walkPage, w') ∧
      w'.events = [] :=
  C78_page_of_the_article_in_the_cache_partial exampleEnv exampleEnv_plain walkConf walk_sums (fun _ => show ∀ b ∈ b!"cd", _ by decide) rfl rfl
    b!"commons" [] rfl demoDecode (fun _ l => l) (fun _ _ => List.Perm.refl _) b!"s.css" b!"A b" (demoWebBig ⟨true, none⟩) walkCache rfl (by decide) (by decide)
    ⟨fun p f hf k => (show ∀ p ∈ walkCache.fs, (100 : Int) - p.2.mtime < (60 + 1) * 60000000000 by decide) _ (FSl.mem_of_get hf),
      fun _ _ => show (100 : Int) - 100 < (60 + 1) * 60000000000 by decide⟩
    walkText (by decide +kernel) walkAnswer walk_json (by decide) b!"A b" [.shown b!"Walk {{n}} km."] walk_answer walkSource walkLines walkLines walkLines
    walk_cleaned walkNested (by decide +kernel) walkNested_ok walk_one (fun _ => b!"3") (walk_answers (by decide +kernel)) [.shown b!"Walk 3 km."] walk_resolved (by decide +kernel)
    (by simp [SourcePart.WellFormed]) (placed_of_test (by decide +kernel)) walkDoc walkDoc_ok (documentSource walkDoc) (withEmptySections_refl _ _)
    [b!"Walk 3 km."] walk_written walk_kept (walkDoc_rendered _) (fun fuel content s h image hi => by rw [walk_images fuel content s h] at hi; cases hi)

/-- The cache is empty, the wiki sends the article and the answer for the template. -/
def walkWorld : World := ⟨[], 0, [], [answer 200 [] [] walkText, answer 200 [] [] walkTemplateText]⟩

def walkRun : Option (Outcome Str × World) :=
  articleRun exampleEnv walkConf demoDecode b!"/c" (fun _ l => l) 100 b!"s.css" b!"A b" repeatEnv walkWorld

def walkAfter : World := (walkRun.map Prod.snd).getD walkWorld

theorem walkRun_result : walkRun.map (fun r => (r.1, r.2.events.length)) = some (.ok walkPage, 2) := by decide +kernel

theorem walkAfter_template : cachedBytes b!"/c" walkAfter.fs b!"templates" b!"cd" = some walkTemplateText := by decide +kernel

theorem walkRun_images : (parseRun exampleEnv walkConf (fun _ l => l) 100 b!"A b" repeatEnv walkWorld).map
    (fun r => match r.1 with | .ok p => p.2.images | _ => []) = some [] := by decide +kernel

attribute [local irreducible] walkRun in
theorem walkRun_ok : walkRun = some (.ok walkPage, walkAfter) := by
  have h := walkRun_result
  unfold walkAfter
  generalize walkRun = r at h
  match r, h with
  | some (o, w), h =>
    simp only [Option.map_some, Option.some.injEq, Prod.mk.injEq] at h
    rw [h.1]
    rfl

attribute [local irreducible] walkAfter in
/-- All hypotheses of the first theorem are met by a run with two requests: it shows that the page of this run is `walkPage`. -/
example : walkRun = some (.ok walkPage, walkAfter) ∧ ∀ page w', walkRun = some (.ok page, w') → page = walkPage := by
  refine ⟨walkRun_ok, fun page w' h => ?_⟩
  have hw : w' = walkAfter := by
    rw [walkRun_ok] at h
    injection h with h
    injection h with _ h
    exact h.symm
  refine (C78_page_shows_what_the_wiki_sent_partial exampleEnv exampleEnv_plain walkConf walk_sums (fun _ => show ∀ b ∈ b!"cd", _ by decide) rfl rfl
    (by decide) (by decide) demoDecode (fun _ l => l) (fun _ _ => List.Perm.refl _) b!"s.css" b!"A b" repeatEnv repeatEnv_usable walkWorld
    (by simp [FS.WF, walkWorld]) ⟨fun p f hf => absurd hf (by simp [walkWorld, FS.get]), fun k l => show (100 : Int) - 100 < (60 + 1) * 60000000000 by decide⟩
    (fun f hf => absurd hf (by simp [walkWorld, FS.get])) _ rfl walkAnswer walk_json (by decide) b!"A b" [.shown b!"Walk {{n}} km."] walk_answer walkSource
    walkLines walkLines walkLines walk_cleaned walkNested (by decide +kernel) walkNested_ok walk_one (fun _ => b!"3") [.shown b!"Walk 3 km."] walk_resolved
    (by decide +kernel) (by simp [SourcePart.WellFormed]) (placed_of_test (by decide +kernel)) walkDoc walkDoc_ok (documentSource walkDoc)
    (withEmptySections_refl _ _) [b!"Walk 3 km."] walk_written walk_kept 100 page w' h ?_ ?_).trans rfl
  · intro text s w1 h1 image hi
    have h2 := walkRun_images
    rw [h1] at h2
    simp only [Option.map_some, Option.some.injEq] at h2
    rw [h2] at hi
    cases hi
  · rw [hw]
    exact walk_answers walkAfter_template

end Verif.Props
