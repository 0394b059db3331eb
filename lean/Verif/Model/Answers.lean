import Verif.Go.JsonRead

/-!
# Answers of the wiki: src/wikipedia/wikipedia.go
-/

namespace Verif.Model
open Verif.Go

/-- `WikiArticleDto`, src/wikipedia/wikipedia.go:23-36, as far as it is filled from JSON. -/
structure ArticleJson where
  title : Str
  content : Str
  /-- `OriginalTitle` has no tag, so that also this field can be set by an answer; it is overwritten afterwards (line 101) -/
  original : Str

/-- `WikiWildcardTextDto`, lines 34-36. -/
def storeWikitext (value : JsonVal) (x : ArticleJson) : ArticleJson × Bool :=
  storeStruct [b!"*"] (fun _ v x => ({ x with content := (storeString x.content v).1 }, (storeString x.content v).2)) value x

/-- A field of `WikiParseArticleDto`, lines 27-32. -/
def storeParseField (name : Str) (value : JsonVal) (x : ArticleJson) : ArticleJson × Bool :=
  if name = b!"title" then ({ x with title := (storeString x.title value).1 }, (storeString x.title value).2)
  else if name = b!"wikitext" then storeWikitext value x
  else ({ x with original := (storeString x.original value).1 }, (storeString x.original value).2)

/-- `WikiArticleDto`, lines 23-25. -/
def storeArticle (value : JsonVal) (x : ArticleJson) : ArticleJson × Bool :=
  storeStruct [b!"parse"] (fun _ v x => storeStruct [b!"title", b!"wikitext", b!"OriginalTitle"] storeParseField v x) value x

/-- `json.Unmarshal(cachedResponseBytes, wikiArticleDto)`, src/wikipedia/wikipedia.go:93-97: title and wikitext; `none`: an
error. -/
def unmarshalArticle (bytes : Str) : Option (Str × Str) :=
  match parseJson bytes with
  | none => none
  | some value =>
    if (storeArticle value ⟨[], [], []⟩).2 then none
    else some ((storeArticle value ⟨[], [], []⟩).1.title, (storeArticle value ⟨[], [], []⟩).1.content)

/-- `json.Unmarshal(evaluatedTemplateString, evaluatedTemplate)`, src/wikipedia/wikipedia.go:262-266, with the types of lines
38-44. -/
def unmarshalTemplate (bytes : Str) : Option Str :=
  match parseJson bytes with
  | none => none
  | some value =>
    let r := storeStruct [b!"expandtemplates"]
      (fun _ v x => storeStruct [b!"wikitext"] (fun _ v x => storeString x v) v x) value []
    if r.2 then none else some r.1

end Verif.Model
