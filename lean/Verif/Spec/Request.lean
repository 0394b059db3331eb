import Verif.Go.Url
import Verif.Go.Strings

/-!
# What a server sees of a request
-/

namespace Verif.Spec
open Verif.Go

/-- Host of an `https` URL: everything up to the next slash. -/
def hostOf (url : Str) : Option Str :=
  if hasPrefix url b!"https://" then some ((url.drop 8).takeWhile (· ≠ 0x2F)) else none

/-- Value of a field of a form: the fields are separated by `&`, the values are decoded. -/
def formField (form name : Str) : Option Str :=
  ((split form b!"&").find? fun p => hasPrefix p (name ++ b!"=")).bind fun p =>
    urlDecode true (p.drop (name.length + 1))

/-- Query part of a URL. -/
def queryOf (url : Str) : Str := (url.dropWhile (· ≠ 0x3F)).drop 1

/-- Value of a query parameter of a URL. -/
def queryParam (url name : Str) : Option Str := formField (queryOf url) name

/-- The parts of the path of an `https` URL without a query. -/
def pathParts (url : Str) : List Str := (split (url.drop 8) b!"/").drop 1

/-- The host has a subdomain in front of a domain whose name begins with "wiki", for example `de.wikipedia.org`. -/
def WikiSubdomain (host : Str) : Prop :=
  ∃ sub name top : Str, sub ≠ [] ∧ name ≠ [] ∧ top ≠ [] ∧ host = sub ++ b!".wiki" ++ name ++ b!"." ++ top

/-- The folder of a wiki on the image server: the first part of the name of its host, for hosts with subdomain. -/
def WikiFolder (host folder : Str) : Prop :=
  (WikiSubdomain host ∧ folder = host.takeWhile (· ≠ 0x2E)) ∨ (¬ WikiSubdomain host ∧ folder = [])

end Verif.Spec
