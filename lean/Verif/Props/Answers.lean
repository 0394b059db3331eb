import Verif.Lemmas.JsonTexts
import Verif.Props.Wikipedia

/-!
# C74: the text of an article is the one in the answer of the wiki
-/

namespace Verif.Props
open Verif.Go Verif.Model Verif.Spec Verif.Lemmas

/-- The article of an answer, however the answer is written. -/
theorem unmarshalArticle_answer {title text : Str} {v : JsonVal} {s : Str} (h : JsonText v s) (hn : nesting v ≤ 10000)
    (ha : ArticleAnswer title text v) : unmarshalArticle s = some (title, text) := by
  unfold unmarshalArticle
  rw [parseJson_text h hn]
  simp only
  rw [storeArticle_answer ha]
  rfl

theorem unmarshalTemplate_answer {text : Str} {v : JsonVal} {s : Str} (h : JsonText v s) (hn : nesting v ≤ 10000)
    (ha : TemplateAnswer text v) : unmarshalTemplate s = some text := by
  obtain ⟨top, inner, rfl, h1, h2⟩ := ha
  unfold unmarshalTemplate
  rw [parseJson_text h hn]
  simp only
  have h3 : storeStruct [b!"wikitext"] (fun _ v (x : Str) => storeString x v) (.obj inner) [] = (text, false) :=
    storeStruct_one (by decide) h2 rfl
  rw [storeStruct_one (store := fun _ v (x : Str) => storeStruct [b!"wikitext"] (fun _ v x => storeString x v) v x)
    (by decide) h1 h3]
  rfl

/-- **C74** (articles) An article that is not in the cache is taken from the answer of the asked wiki: when the answer is a JSON
text, written in any way, with the title and the wikitext of an article, then these are the title and the wikitext the program
works with. -/
theorem C74_article_is_the_one_of_the_answer (c : WikiConf) (hc : c.decodeArticle = unmarshalArticle) (env : WebEnv)
    (host title : Str) (w w' : World) (dto : ArticleDto) (hd : (cleanElems env.cache.cacheDir).getLast? ≠ some b!".tmp")
    (hff : env.faults = noFaults) (hw : WalkOk env.cache) (hr : ∀ k, Digits (env.rnd k)) (hwf : w.fs.WF)
    (hmax : 0 ≤ env.cache.maxAge) (hnu : NotUsable env articleFolder (articleFile title) w)
    (hok : downloadArticle c host title env w = (.ok dto, w')) :
    ∃ resp, (doRequest b!"GET" (articleUrl host title) [] env w).1 = .ok resp ∧
      ∀ answer name text, JsonText answer resp.body.bytes → nesting answer ≤ 10000 → ArticleAnswer name text answer →
        dto = ⟨name, text, title⟩ := by
  obtain ⟨resp, h1, -, h3, h4⟩ := C18_article_from_asked_host_partial c env host title w w' dto hd hff hw hr hwf hmax hnu hok
  refine ⟨resp, h1, fun answer name text hj hn ha => ?_⟩
  rw [hc, unmarshalArticle_answer hj hn ha] at h3
  injection h3 with h3
  injection h3 with e1 e2
  cases dto
  simp only at e1 e2 h4
  rw [e1, e2, h4]

/-- **C74** (templates) The same for the text of a template. -/
theorem C74_template_is_the_one_of_the_answer (c : WikiConf) (hc : c.decodeTemplate = unmarshalTemplate) (env : WebEnv)
    (template cacheFile : Str) (w w' : World) (result : Str) (hv : ValidKey env.cache templateFolder cacheFile)
    (hff : env.faults = noFaults) (hw : WalkOk env.cache) (hr : ∀ k, Digits (env.rnd k)) (hwf : w.fs.WF)
    (hmax : 0 ≤ env.cache.maxAge) (hnu : NotUsable env templateFolder cacheFile w)
    (hok : evaluateTemplate c template cacheFile env w = (.ok result, w')) :
    ∃ resp, (doRequest b!"GET" (templateUrl c template) [] env w).1 = .ok resp ∧
      ∀ answer text, JsonText answer resp.body.bytes → nesting answer ≤ 10000 → TemplateAnswer text answer → result = text := by
  unfold evaluateTemplate at hok
  obtain ⟨⟨p, fresh⟩, w1, h1, h2⟩ := web_bind_inv hok
  obtain ⟨bytes, w2, h3, h4⟩ := web_bind_inv h2
  obtain ⟨resp, hresp⟩ := downloadAndCache_requested hv hff hmax hnu h1
  have h1a : (downloadAndCache (templateUrl c template) templateFolder cacheFile env w).1 = .ok (p, fresh) := by
    rw [h1]
  obtain ⟨-, -, -, k, hk⟩ := C13_success_stores_body env _ _ _ w hv hff hw hr hwf hmax hnu resp hresp p fresh h1a
  rw [h1] at hk
  rw [readBytes_ok hff hk] at h3
  cases h3
  refine ⟨resp, hresp, fun answer text hj hn ha => ?_⟩
  simp only [hc, unmarshalTemplate_answer hj hn ha, orErr] at h4
  injection h4 with h4 _
  injection h4 with h4
  exact h4.symm

/-- **C74** (cut off) What is left of the JSON text of an object when it is cut off somewhere is an error, for articles and for
templates. -/
theorem C74_cut_off_answers_are_errors_partial (fields : JsonMembers) (front back : Str)
    (h : JsonText (.obj fields) (front ++ back)) (hn : nesting (.obj fields) ≤ 10000) (hb : ¬ Blank back) :
    unmarshalArticle front = none ∧ unmarshalTemplate front = none := by
  unfold unmarshalArticle unmarshalTemplate
  rw [parseJson_cut h hn hb]
  exact ⟨rfl, rfl⟩

/-- **C74** (characters) Whatever the wiki sends, the texts the program works with are valid UTF-8. -/
theorem C74_texts_are_valid (bytes : Str) :
    (∀ title text, unmarshalArticle bytes = some (title, text) → ValidText title ∧ ValidText text) ∧
    ∀ text, unmarshalTemplate bytes = some text → ValidText text :=
  ⟨fun _ _ h => unmarshalArticle_valid h, fun _ h => unmarshalTemplate_valid h⟩

/-- **C74** fails: an answer without an article, for example one that describes an error, is taken for an article without
text. (MediaWiki also reports errors in a header, which is looked at, so that this concerns other servers.) -/
theorem C74_answer_without_article_is_accepted (fields : JsonMembers) (s : Str) (h : JsonText (.obj fields) s)
    (hn : nesting (.obj fields) ≤ 10000) (ho : ∀ m ∈ memberList fields, OtherName b!"parse" m.1) :
    unmarshalArticle s = some ([], []) := by
  have : storeArticle (.obj fields) ⟨[], [], []⟩ = (⟨[], [], []⟩, false) := by
    show storeMembers _ _ fields _ = _
    rw [storeMembers_list]
    exact storeList_other _ (by decide) (fun m hm n hn => by rw [List.mem_singleton] at hn; subst hn; exact ho m hm)
  unfold unmarshalArticle
  rw [parseJson_text h hn]
  simp only
  rw [this]
  rfl

/-! ## Examples -/

theorem charsText_ascii {s : Str} (h : ∀ c ∈ s, 0x20 ≤ c ∧ c < 0x80 ∧ c ≠ 0x22 ∧ c ≠ 0x5C) : CharsText (s.map UInt8.toNat) s := by
  induction s with
  | nil => exact .nil
  | cons c t ih =>
    obtain ⟨h1, h2, h3, h4⟩ := h c (by simp)
    have hlt : c.toNat < 128 := UInt8.lt_iff_toNat_lt.mp h2
    have h20 : 32 ≤ c.toNat := UInt8.le_iff_toNat_le.mp h1
    have hu : utf8 c.toNat = [c] := by unfold utf8; rw [if_pos hlt, UInt8.ofNat_toNat]
    have hc := CharText.plain c.toNat (.inl (by omega)) h20 (fun e => h3 (UInt8.toNat_inj.mp e)) (fun e => h4 (UInt8.toNat_inj.mp e))
    rw [hu] at hc
    exact .cons _ _ [c] t hc (ih fun d hd => h d (by simp [hd]))

/-- The answer of a wiki for an article that consists of an a with two dots, a grinning face and a line break. -/
def smileAnswer : JsonVal :=
  .obj (.cons b!"parse" (.obj (.cons b!"wikitext" (.obj (.cons b!"*" (.str [0xC3, 0xA4, 0xF0, 0x9F, 0x98, 0x80, 0x0A]) .nil))
    (.cons b!"pageid" (.num b!"12") (.cons b!"title" (.str b!"Smile") .nil)))) .nil)

def smileText : Str :=
  b!"{\"parse\": {\"wikitext\":{\"*\":\"\\u00e4\\ud83d\\uDE00\\n\"},\n\"pageid\":12,\"title\":\"Smile\"}}"

theorem stringText_ascii {s : Str} (h : ∀ c ∈ s, 0x20 ≤ c ∧ c < 0x80 ∧ c ≠ 0x22 ∧ c ≠ 0x5C) (hs : (s.map UInt8.toNat).flatMap utf8 = s) :
    StringText s (b!"\"" ++ s ++ b!"\"") := ⟨_, s, charsText_ascii h, hs.symm, rfl⟩

theorem smile_string : StringText [0xC3, 0xA4, 0xF0, 0x9F, 0x98, 0x80, 0x0A] b!"\"\\u00e4\\ud83d\\uDE00\\n\"" := by
  refine ⟨[0xE4, 0x1F600, 0x0A], b!"\\u00e4\\ud83d\\uDE00\\n", ?_, by decide, rfl⟩
  refine .cons 0xE4 [0x1F600, 0x0A] b!"\\u00e4" b!"\\ud83d\\uDE00\\n" (.escaped _ _ (by decide)
    ⟨0x30, 0x30, 0x65, 0x34, 0, 0, 14, 4, rfl, by decide, by decide, by decide, by decide, by decide⟩) ?_
  refine .cons 0x1F600 [0x0A] b!"\\ud83d\\uDE00" b!"\\n" (.pair 0x1F600 0xD83D 0xDE00 b!"\\ud83d" b!"\\uDE00" (by decide) (by decide)
    (by decide) ⟨0x64, 0x38, 0x33, 0x64, 13, 8, 3, 13, rfl, by decide, by decide, by decide, by decide, by decide⟩
    ⟨0x44, 0x45, 0x30, 0x30, 13, 14, 0, 0, rfl, by decide, by decide, by decide, by decide, by decide⟩) ?_
  exact .cons 0x0A [] b!"\\n" [] (.short 0x6E 0x0A (by decide)) .nil

theorem smile_json : JsonText smileAnswer smileText := by
  have hb : Blank [] := by intro c hc; cases hc
  have inner : ValueText (.obj (.cons b!"*" (.str [0xC3, 0xA4, 0xF0, 0x9F, 0x98, 0x80, 0x0A]) .nil))
      b!"{\"*\":\"\\u00e4\\ud83d\\uDE00\\n\"}" := by
    rw [ValueText]
    refine ⟨b!"\"*\":\"\\u00e4\\ud83d\\uDE00\\n\"", rfl, ?_⟩
    rw [MembersText]
    refine ⟨[], b!"\"*\"", [], [], b!"\"\\u00e4\\ud83d\\uDE00\\n\"", [], rfl, hb, stringText_ascii (by decide) (by decide), hb, hb, ?_, hb⟩
    rw [ValueText]
    exact smile_string
  have parse : ValueText (.obj (.cons b!"wikitext" (.obj (.cons b!"*" (.str [0xC3, 0xA4, 0xF0, 0x9F, 0x98, 0x80, 0x0A]) .nil))
      (.cons b!"pageid" (.num b!"12") (.cons b!"title" (.str b!"Smile") .nil))))
      b!"{\"wikitext\":{\"*\":\"\\u00e4\\ud83d\\uDE00\\n\"},\n\"pageid\":12,\"title\":\"Smile\"}" := by
    rw [ValueText]
    refine ⟨b!"\"wikitext\":{\"*\":\"\\u00e4\\ud83d\\uDE00\\n\"},\n\"pageid\":12,\"title\":\"Smile\"", rfl, ?_⟩
    rw [MembersText]
    refine ⟨[], b!"\"wikitext\"", [], [], _, [], b!"\n\"pageid\":12,\"title\":\"Smile\"", rfl, hb,
      stringText_ascii (by decide) (by decide), hb, hb, inner, hb, ?_⟩
    rw [MembersText]
    refine ⟨b!"\n", b!"\"pageid\"", [], [], b!"12", [], b!"\"title\":\"Smile\"", rfl, by unfold Blank; decide,
      stringText_ascii (by decide) (by decide), hb, hb, ?_, hb, ?_⟩
    · rw [ValueText]
      exact ⟨rfl, [], b!"12", [], [], rfl, by decide, .inr ⟨⟨by decide, by decide⟩, by decide⟩, .inl rfl, .inl rfl⟩
    · rw [MembersText]
      refine ⟨[], b!"\"title\"", [], [], b!"\"Smile\"", [], rfl, hb, stringText_ascii (by decide) (by decide), hb, hb, ?_, hb⟩
      rw [ValueText]
      exact stringText_ascii (by decide) (by decide)
  refine ⟨[], smileText, [], by simp, hb, ?_, hb⟩
  unfold smileAnswer
  rw [ValueText]
  refine ⟨b!"\"parse\": {\"wikitext\":{\"*\":\"\\u00e4\\ud83d\\uDE00\\n\"},\n\"pageid\":12,\"title\":\"Smile\"}", rfl, ?_⟩
  rw [MembersText]
  exact ⟨[], b!"\"parse\"", [], b!" ", _, [], rfl, hb, stringText_ascii (by decide) (by decide), hb, by unfold Blank; decide, parse, hb⟩

theorem smile_answer : ArticleAnswer b!"Smile" [0xC3, 0xA4, 0xF0, 0x9F, 0x98, 0x80, 0x0A] smileAnswer := by
  refine ⟨_, _, _, rfl, ⟨[], [], rfl, by simp⟩, ⟨[_, _], [], rfl, ?_⟩, ⟨[], [_, _], rfl, ?_⟩, ⟨[], [], rfl, by simp⟩, ?_⟩
  · intro m hm
    simp only [List.append_nil, List.mem_cons, List.not_mem_nil, or_false] at hm
    rcases hm with rfl | rfl
    · exact ⟨by decide, by decide⟩
    · exact ⟨by decide, by decide⟩
  · intro m hm
    simp only [List.nil_append, List.mem_cons, List.not_mem_nil, or_false] at hm
    rcases hm with rfl | rfl
    · exact ⟨by decide, by decide⟩
    · exact ⟨by decide, by decide⟩
  · intro m hm
    simp only [memberList, List.mem_cons, List.not_mem_nil, or_false] at hm
    rcases hm with rfl | rfl | rfl
    · exact ⟨by decide, by decide⟩
    · exact ⟨by decide, by decide⟩
    · exact ⟨by decide, by decide⟩

/-- The article of the answer, from the request to the text. -/
example : NotUsable (demoWebBig ⟨true, none⟩) articleFolder (articleFile b!"Smiley") ⟨[], 0, [], [answer 200 [] [] smileText]⟩ ∧
    (downloadArticle { demoConf [] with decodeArticle := unmarshalArticle } b!"de.wikipedia.org" b!"Smiley"
      (demoWebBig ⟨true, none⟩) ⟨[], 0, [], [answer 200 [] [] smileText]⟩).1 =
      .ok ⟨b!"Smile", [0xC3, 0xA4, 0xF0, 0x9F, 0x98, 0x80, 0x0A], b!"Smiley"⟩ ∧
    nesting smileAnswer ≤ 10000 := by
  refine ⟨?_, ?_, by decide⟩
  · intro f hf; cases hf
  · decide +kernel

/-- Half of the answer. -/
example : smileText = b!"{\"parse\": {\"wikitext\":" ++ b!"{\"*\":\"\\u00e4\\ud83d\\uDE00\\n\"},\n\"pageid\":12,\"title\":\"Smile\"}}" ∧
    ¬ Blank b!"{\"*\":\"\\u00e4\\ud83d\\uDE00\\n\"},\n\"pageid\":12,\"title\":\"Smile\"}}" ∧
    unmarshalArticle b!"{\"parse\": {\"wikitext\":" = none := by
  refine ⟨by decide, by unfold Blank; decide, by decide +kernel⟩

/-- A byte that belongs to no character becomes U+FFFD, as well as half of a pair of surrogates. -/
example : unmarshalArticle (b!"{\"parse\":{\"title\":\"a\\ud83d\",\"wikitext\":{\"*\":\"" ++ [0xFF] ++ b!"\"}}}") =
    some ([0x61, 0xEF, 0xBF, 0xBD], [0xEF, 0xBF, 0xBD]) := by decide +kernel

/-- An answer that describes an error. -/
example : unmarshalArticle b!"{\"error\":{\"code\":\"missingtitle\"}}" = some ([], []) ∧ OtherName b!"parse" b!"error" := by
  refine ⟨by decide +kernel, by decide, by decide⟩

/-- The answer for a template. -/
example : unmarshalTemplate b!"{\"expandtemplates\":{\"wikitext\":\"3 km\"}}" = some b!"3 km" ∧
    TemplateAnswer b!"3 km" (.obj (.cons b!"expandtemplates" (.obj (.cons b!"wikitext" (.str b!"3 km") .nil)) .nil)) := by
  refine ⟨by decide +kernel, _, _, rfl, ⟨[], [], rfl, by simp⟩, ⟨[], [], rfl, by simp⟩⟩

end Verif.Props
