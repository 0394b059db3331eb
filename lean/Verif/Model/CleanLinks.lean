import Verif.Model.CloseToken
import Verif.Model.Parser

/-!
# Removal of unwanted links, src/parser/cleaner.go
-/

namespace Verif.Model
open Verif.Go

/-- Lines 84-104: the decision whether a link with this content is removed. The index expression of line 90 is the first
character of the content (if the content is empty, it is the closing bracket). -/
def isUnwantedLink (env : ParserEnv) (totalLinkContent : Str) : Bool :=
  let allPrefixes := (split totalLinkContent b!":").dropLast
  let isNormalLinkToCategory := hasPrefix totalLinkContent b!":"
  if (match allPrefixes with
      | [] => false
      | p :: _ => decide (env.lower p ∈ env.config.list .filePrefixes)) then false
  else if isNormalLinkToCategory then false
  else allPrefixes.any fun p =>
    let linkPrefix := env.lower p
    let isForbiddenPrefix := !decide (linkPrefix ∈ env.config.list .filePrefixes) &&
      !decide (linkPrefix ∈ env.config.list .allowedLinkPrefixes)
    let isCategory := decide (linkPrefix ∈ env.config.list .categoryPrefixes)
    decide (linkPrefix ≠ []) && (isForbiddenPrefix || isCategory)

/-- The loop of `removeUnwantedInternalLinks`, src/parser/cleaner.go:75-119. First argument: `content[i:]`; the text in
front of it does not change any more. `skip` is the number of characters of a removed link that are still to be
skipped. The slice expressions panic if there is no closing bracket (line 81) or if it is the last character (line
109). -/
def linkLoop (env : ParserEnv) : Str → (skip : Nat) → Res Str
  | [], _ => .ok []
  | _ :: t, skip + 1 => linkLoop env t skip
  | c :: t, 0 =>
    if (c :: t).length ≤ 2 then .ok (c :: t)
    else if hasPrefix (c :: t) b!"[[" then
      match findClose (c :: t) 2 b!"[" b!"]" with
      | none => .panic
      | some endIndex =>
        if isUnwantedLink env (((c :: t).take endIndex).drop 2) then
          if endIndex + 2 ≤ (c :: t).length then linkLoop env t (endIndex + 1) else .panic
        else do
          let rest ← linkLoop env t 0
          .ok (c :: rest)
    else do
      let rest ← linkLoop env t 0
      .ok (c :: rest)

/-- `removeUnwantedInternalLinks`, src/parser/cleaner.go:73-122. -/
def removeUnwantedInternalLinks (env : ParserEnv) (content : Str) : Res Str := linkLoop env content 0

end Verif.Model
