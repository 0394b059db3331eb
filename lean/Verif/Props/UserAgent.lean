import Verif.Spec.UserAgent
import Verif.Lemmas.Strings

/-!
# C84: requests name the program
-/

namespace Verif.Props
open Verif.Go Verif.Model Verif.Spec
open scoped List

theorem replaceAllGo_skip (old new : Str) : ∀ (n : Nat) (t : Str), replaceAllGo old new n t = replaceAllGo old new 0 (t.drop n)
  | 0, _ => rfl
  | n + 1, [] => by simp [replaceAllGo]
  | n + 1, c :: t => by rw [replaceAllGo, List.drop_succ_cons, replaceAllGo_skip old new n t]

theorem placeholder_borders : ∀ k, 0 < k → k < 11 → ¬ (b!"{{VERSION}}".drop k <+: b!"{{VERSION}}") := by
  intro k h1 h2
  have : ∀ k : Fin 11, 0 < k.val → ¬ (b!"{{VERSION}}".drop k.val <+: b!"{{VERSION}}") := by decide
  exact this ⟨k, h2⟩ h1

/-- The first placeholder is the one behind the text without placeholders. -/
theorem placeholder_first {t : Str} (ht : t ≠ []) (h : ¬ b!"{{VERSION}}" <:+: t) (rest : Str) :
    ¬ b!"{{VERSION}}" <+: t ++ (b!"{{VERSION}}" ++ rest) := by
  intro hp
  by_cases hl : 11 ≤ t.length
  · exact h (List.prefix_of_prefix_length_le hp (List.prefix_append _ _) hl).isInfix
  · have h2 : b!"{{VERSION}}".drop t.length <+: b!"{{VERSION}}" ++ rest := by
      obtain ⟨u, hu⟩ := hp
      refine ⟨u, ?_⟩
      have := congrArg (List.drop t.length) hu
      rwa [List.drop_left, List.drop_append_of_le_length (by simp; omega)] at this
    have h3 : b!"{{VERSION}}".drop t.length <+: b!"{{VERSION}}" :=
      List.prefix_of_prefix_length_le h2 (List.prefix_append _ _) (by simp)
    exact placeholder_borders _ (List.length_pos_iff.mpr ht) (by omega) h3

theorem replaceAll_placeholder (new rest : Str) : ∀ p : Str, ¬ b!"{{VERSION}}" <:+: p →
    replaceAll (p ++ (b!"{{VERSION}}" ++ rest)) b!"{{VERSION}}" new = p ++ new ++ replaceAll rest b!"{{VERSION}}" new
  | [], _ => by
    show replaceAllGo _ _ 0 (0x7B :: (b!"{VERSION}}" ++ rest)) = _
    rw [replaceAllGo, if_pos (by rw [List.isPrefixOf_iff_prefix]; exact List.prefix_append b!"{{VERSION}}" rest), replaceAllGo_skip]
    rfl
  | c :: p, h => by
    have hn := placeholder_first (t := c :: p) (by simp) h rest
    show replaceAllGo _ _ 0 (c :: (p ++ (b!"{{VERSION}}" ++ rest))) = _
    rw [replaceAllGo, if_neg (by rw [List.isPrefixOf_iff_prefix]; exact hn)]
    have := replaceAll_placeholder new rest p fun hi => h (hi.trans (List.suffix_cons c p).isInfix)
    unfold replaceAll at this
    rw [this]
    rfl

theorem userAgent_filled : ∀ parts : List Str, parts ≠ [] → (∀ p ∈ parts, ¬ b!"{{VERSION}}" <:+: p) →
    userAgentString (join b!"{{VERSION}}" parts) = join b!"v0.6.1" parts
  | [], h, _ => absurd rfl h
  | [p], _, hp => by
    show replaceAll p _ _ = p
    exact replaceAll_of_not_infix (hp p (by simp))
  | p :: q :: ps, _, hp => by
    have ih := userAgent_filled (q :: ps) (by simp) fun x hx => hp x (by simp [hx])
    show replaceAll (p ++ b!"{{VERSION}}" ++ join b!"{{VERSION}}" (q :: ps)) _ _ = p ++ b!"v0.6.1" ++ join b!"v0.6.1" (q :: ps)
    rw [← ih, List.append_assoc, replaceAll_placeholder _ _ p (hp p (by simp))]
    rfl

theorem sentRequests_headers (script : List Answer) : ∀ r, ∀ q ∈ sentRequests r script, q.headers = r.headers ∧ q.url = r.url ∧ q.method = r.method := by
  induction script with
  | nil => intro r q hq; obtain rfl := List.mem_singleton.mp hq; exact ⟨rfl, rfl, rfl⟩
  | cons a script ih =>
    intro r q hq
    cases a with
    | failed => obtain rfl := List.mem_singleton.mp hq; exact ⟨rfl, rfl, rfl⟩
    | response a =>
      rw [sentRequests] at hq
      split at hq
      · rcases List.mem_cons.mp hq with rfl | hq
        · exact ⟨rfl, rfl, rfl⟩
        · exact ih { r with body := [] } q hq
      · obtain rfl := List.mem_singleton.mp hq; exact ⟨rfl, rfl, rfl⟩

theorem sentRequests_plain (script : List Answer) : ∀ r : HttpRequest,
    plainRequests (requestLoop r.method r.url r.body script).1 = (sentRequests r script).map fun q => (q.method, q.url, q.body) := by
  induction script with
  | nil => intro r; rfl
  | cons a script ih =>
    intro r
    cases a with
    | failed => rfl
    | response a =>
      rw [sentRequests, requestLoop]
      by_cases h : a.status = 429
      · rw [if_pos h, if_pos h, List.map_cons, ← ih]
        rfl
      · rw [if_neg h, if_neg h]
        split
        · rfl
        · split <;> rfl

/-- **C84**: all requests for pages, images and formulas (GET) and for the rendering of formulas (POST), also repeated ones, have exactly
one user agent: the text of the setting with the version of the program at each place of the placeholder. They are the requests of the
model of downloads. -/
theorem C84_requests_name_the_program (template text url data : Str) (h : FilledTemplate template text) (script : List Answer) :
    (∀ r ∈ sentRequests (getRequest template url) script, headerValues r b!"User-Agent" = [text]) ∧
    (∀ r ∈ sentRequests (postRequest template url data) script,
      headerValues r b!"User-Agent" = [text] ∧ headerValues r b!"Content-Type" = [b!"application/x-www-form-urlencoded"]) ∧
    plainRequests (requestLoop b!"GET" url [] script).1 = (sentRequests (getRequest template url) script).map (fun q => (q.method, q.url, q.body)) ∧
    plainRequests (requestLoop b!"POST" url data script).1 = (sentRequests (postRequest template url data) script).map fun q => (q.method, q.url, q.body) := by
  obtain ⟨parts, hne, hp, rfl, rfl⟩ := h
  have hu := userAgent_filled parts hne hp
  refine ⟨fun r hr => ?_, fun r hr => ?_, sentRequests_plain script (getRequest _ url), sentRequests_plain script (postRequest _ url data)⟩
  · rw [headerValues, (sentRequests_headers script _ r hr).1, getRequest, hu]
    rfl
  · rw [headerValues, headerValues, (sentRequests_headers script _ r hr).1, postRequest, hu]
    exact ⟨rfl, rfl⟩

/-- The meaning of the placeholder is the same for every template. -/
theorem C84_every_template_can_be_filled (template : Str) : FilledTemplate template (userAgentString template) := by
  have key : ∀ (n : Nat) (t : Str), t.length ≤ n → ∃ parts : List Str, parts ≠ [] ∧ (∀ p ∈ parts, ¬ b!"{{VERSION}}" <:+: p) ∧ t = join b!"{{VERSION}}" parts := by
    intro n
    induction n with
    | zero =>
      intro t ht
      obtain rfl := List.length_eq_zero_iff.mp (Nat.le_zero.mp ht)
      exact ⟨[[]], by simp, by simp, rfl⟩
    | succ n ih =>
      intro t ht
      cases t with
      | nil => exact ⟨[[]], by simp, by simp, rfl⟩
      | cons c t =>
        by_cases h : b!"{{VERSION}}" <+: c :: t
        · obtain ⟨r, e⟩ := h
          have hr : r.length ≤ n := by
            have := congrArg List.length e
            simp at this ht
            omega
          obtain ⟨parts, hne, hp, rfl⟩ := ih r hr
          refine ⟨[] :: parts, by simp, ?_, ?_⟩
          · intro p hp'
            rcases List.mem_cons.mp hp' with rfl | hp'
            · simp
            · exact hp p hp'
          · cases parts with
            | nil => exact absurd rfl hne
            | cons q qs => rw [← e]; rfl
        · obtain ⟨parts, hne, hp, e⟩ := ih t (by simp at ht; omega)
          cases parts with
          | nil => exact absurd rfl hne
          | cons q qs =>
            have hj : c :: t = join b!"{{VERSION}}" ((c :: q) :: qs) := by rw [e]; cases qs <;> rfl
            refine ⟨(c :: q) :: qs, by simp, ?_, hj⟩
            intro p hp'
            rcases List.mem_cons.mp hp' with rfl | hp'
            · intro hi
              rcases List.infix_cons_iff.mp hi with hi | hi
              · refine h (hi.trans ?_)
                rw [hj]
                cases qs with
                | nil => exact List.prefix_refl _
                | cons a b => rw [join, List.append_assoc]; exact List.prefix_append _ _
              · exact hp q (by simp) hi
            · exact hp p (by simp [hp'])
  obtain ⟨parts, hne, hp, e⟩ := key _ template (Nat.le_refl _)
  exact ⟨parts, hne, hp, e, by rw [e]; exact userAgent_filled parts hne hp⟩

/-- The default, and a template with two placeholders next to other braces; a request that is sent three times. -/
example : FilledTemplate b!"wiki2book {{VERSION}} (https://github.com/hauke96/wiki2book)" b!"wiki2book v0.6.1 (https://github.com/hauke96/wiki2book)" :=
  ⟨[b!"wiki2book ", b!" (https://github.com/hauke96/wiki2book)"], by simp, by decide +kernel, rfl, rfl⟩

example : FilledTemplate b!"{{{VERSION}}{{VERSION}}}{{version}}" b!"{v0.6.1v0.6.1}{{version}}" :=
  ⟨[b!"{", [], b!"}{{version}}"], by simp, by decide +kernel, rfl, rfl⟩

example : (sentRequests (getRequest b!"a {{VERSION}}" b!"https://b") [.response ⟨429, b!"1", [], [], ⟨[], false⟩⟩, .response ⟨429, [], [], [], ⟨[], false⟩⟩]).map
    (fun r => headerValues r b!"User-Agent") = [[b!"a v0.6.1"], [b!"a v0.6.1"], [b!"a v0.6.1"]] := by decide +kernel

end Verif.Props
