import Verif.Model.Web
import Verif.Go.Strings

/-!
# Headers of requests: src/http/http.go

`Model/Web` describes the requests without their headers. Here they are described with them; that both descriptions have the same
requests is a part of C84.
-/

namespace Verif.Model
open Verif.Go

/-- What the code sets of `http.Request`. A header has one entry for each value. -/
structure HttpRequest where
  method : Str
  url : Str
  body : Str
  headers : List (Str × Str)

/-- `Header.Set` of Go: all values of this name are replaced by one. (Go first gives the name its canonical form; the names below have it.) -/
def setHeader (headers : List (Str × Str)) (name value : Str) : List (Str × Str) := headers.filter (fun h => h.1 ≠ name) ++ [(name, value)]

/-- `VERSION`, src/util/constants.go:3. -/
def programVersion : Str := b!"v0.6.1"

/-- src/http/http.go:100-101 and 119-120. -/
def userAgentString (template : Str) : Str := replaceAll template b!"{{VERSION}}" programVersion

/-- The request of `download`, src/http/http.go:94-102. -/
def getRequest (template url : Str) : HttpRequest :=
  ⟨b!"GET", url, [], setHeader [] b!"User-Agent" (userAgentString template)⟩

/-- The request of `PostFormEncoded`, src/http/http.go:114-122. -/
def postRequest (template url requestData : Str) : HttpRequest :=
  ⟨b!"POST", url, requestData, setHeader (setHeader [] b!"User-Agent" (userAgentString template)) b!"Content-Type" b!"application/x-www-form-urlencoded"⟩

/-- The requests the loop of `doRequest` sends, src/http/http.go:137-165: the same request again, its body already read, see `requestLoop`. -/
def sentRequests (r : HttpRequest) : List Answer → List HttpRequest
  | [] => [r]
  | .failed :: _ => [r]
  | .response a :: script => if a.status = 429 then r :: sentRequests { r with body := [] } script else [r]

end Verif.Model
