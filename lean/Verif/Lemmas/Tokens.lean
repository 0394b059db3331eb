import Verif.Model.Tokenize
import Verif.Lemmas.Strings
import Verif.Spec.Tokens

/-!
# The state of the tokenizer only grows
-/

namespace Verif.Model
open Verif.Go Verif.Spec

theorem digit_ne_underscore {s : Str} (h : ∀ c ∈ s, 48 ≤ c ∧ c ≤ 57) : (0x5F : Byte) ∉ s := by
  intro hm
  exact absurd (h _ hm).2 (by decide)

/-- The number of a token can be read from its key, whatever the kind is. -/
theorem tokenKey_number {t t' : Str} {n n' : Nat} (h : tokenKey t n = tokenKey t' n') : n = n' := by
  unfold tokenKey at h
  have h1 : b!"$$TOKEN_" ++ t ++ b!"_" ++ decimal n = b!"$$TOKEN_" ++ t' ++ b!"_" ++ decimal n' :=
    List.append_cancel_right h
  have h2 := congrArg List.reverse h1
  simp only [List.reverse_append] at h2
  have key : ∀ (d d' : Str) (r r' : Str), (0x5F : Byte) ∉ d → (0x5F : Byte) ∉ d' →
      d ++ (b!"_").reverse ++ r = d' ++ (b!"_").reverse ++ r' → d = d' := by
    intro d
    induction d with
    | nil =>
      intro d' r r' _ hd' he
      cases d' with
      | nil => rfl
      | cons c d' =>
        have : (0x5F : Byte) = c := by simpa using congrArg List.head? he
        exact absurd (this ▸ List.mem_cons_self) hd'
    | cons c d ih =>
      intro d' r r' hd hd' he
      cases d' with
      | nil =>
        have : c = (0x5F : Byte) := by simpa using congrArg List.head? he
        exact absurd (this ▸ List.mem_cons_self) hd
      | cons c' d' =>
        have hh : c = c' := by simpa using congrArg List.head? he
        have ht : d ++ (b!"_").reverse ++ r = d' ++ (b!"_").reverse ++ r' := by
          simpa using congrArg List.tail he
        rw [hh, ih d' r r' (fun hm => hd (List.mem_cons_of_mem _ hm)) (fun hm => hd' (List.mem_cons_of_mem _ hm)) ht]
  have h3 : (decimal n).reverse = (decimal n').reverse := by
    refine key _ _ (t.reverse ++ (b!"$$TOKEN_").reverse) (t'.reverse ++ (b!"$$TOKEN_").reverse) ?_ ?_ ?_
    · exact digit_ne_underscore fun c hc => decimal_digits n c (List.mem_reverse.mp hc)
    · exact digit_ne_underscore fun c hc => decimal_digits n' c (List.mem_reverse.mp hc)
    · simpa [List.append_assoc] using h2
  exact decimal_injective (List.reverse_injective h3)

/-- What every part of the tokenizer does with the state: the counter does not decrease, assignments are added, each of
them with a new number, and images are added. -/
structure Grows (s s' : TokState) : Prop where
  counter : s.counter ≤ s'.counter
  tokens : ∃ new : List (Str × Token), s'.tokenMap = new ++ s.tokenMap ∧ (new.map Prod.fst).Nodup ∧
    ∀ e ∈ new, ∃ t n, s.counter ≤ n ∧ n < s'.counter ∧ e.1 = tokenKey t n
  images : ∃ new, s'.images = s.images ++ new

theorem Grows.refl (s : TokState) : Grows s s := ⟨Nat.le_refl _, ⟨[], by simp⟩, ⟨[], by simp⟩⟩

theorem Grows.trans {s₁ s₂ s₃ : TokState} (h : Grows s₁ s₂) (h' : Grows s₂ s₃) : Grows s₁ s₃ := by
  obtain ⟨c, ⟨n, hn, hd, hk⟩, ⟨i, hi⟩⟩ := h
  obtain ⟨c', ⟨n', hn', hd', hk'⟩, ⟨i', hi'⟩⟩ := h'
  refine ⟨by omega, ⟨n' ++ n, by rw [hn', hn, List.append_assoc], ?_, ?_⟩, ⟨i ++ i', by rw [hi', hi, List.append_assoc]⟩⟩
  · rw [List.map_append, List.nodup_append]
    refine ⟨hd', hd, ?_⟩
    intro a ha b hb heq
    obtain ⟨e, he, rfl⟩ := List.mem_map.mp ha
    obtain ⟨e', he', rfl⟩ := List.mem_map.mp hb
    obtain ⟨t, m, h1, _, h3⟩ := hk' e he
    obtain ⟨t', m', _, h5, h6⟩ := hk e' he'
    have := tokenKey_number (h3.symm.trans (heq.trans h6))
    omega
  · intro e he
    rcases List.mem_append.mp he with he | he
    · obtain ⟨t, m, h1, h2, h3⟩ := hk' e he
      exact ⟨t, m, by omega, h2, h3⟩
    · obtain ⟨t, m, h1, h2, h3⟩ := hk e he
      exact ⟨t, m, h1, by omega, h3⟩

/-- A token is assigned to a key that was created before the content of the token was parsed. -/
theorem Grows.reserved {s s' : TokState} {t : Str} {token : Token}
    (h : Grows { s with counter := s.counter + 1 } s') :
    Grows s { s' with tokenMap := (tokenKey t s.counter, token) :: s'.tokenMap } := by
  obtain ⟨c, ⟨n, hn, hd, hk⟩, ⟨i, hi⟩⟩ := h
  simp only at c hn hk hi
  refine ⟨by simp only; omega, ⟨(tokenKey t s.counter, token) :: n, by rw [hn]; rfl, ?_, ?_⟩, ⟨i, hi⟩⟩
  · rw [List.map_cons, List.nodup_cons]
    refine ⟨?_, hd⟩
    intro hm
    obtain ⟨e, he, heq⟩ := List.mem_map.mp hm
    obtain ⟨t', m, h1, _, h3⟩ := hk e he
    have := tokenKey_number (h3.symm.trans heq)
    omega
  · intro e he
    rcases List.mem_cons.mp he with rfl | he
    · exact ⟨t, s.counter, Nat.le_refl _, by simp only; omega, rfl⟩
    · obtain ⟨t', m, h1, h2, h3⟩ := hk e he
      exact ⟨t', m, by omega, h2, h3⟩

theorem lookupToken_of_mem {m : List (Str × Token)} (h : NoTokenReplaced m) {key : Str} {token : Token}
    (hm : (key, token) ∈ m) : lookupToken m key = some token := by
  induction m with
  | nil => exact absurd hm (by simp)
  | cons e m ih =>
    unfold NoTokenReplaced at h
    rw [List.map_cons, List.nodup_cons] at h
    unfold lookupToken
    rcases List.mem_cons.mp hm with rfl | hm
    · simp
    · have hne : (e.1 == key) = false := by
        rw [beq_eq_false_iff_ne]
        intro he
        exact h.1 (he ▸ List.mem_map_of_mem (f := Prod.fst) hm)
      rw [List.find?_cons, hne]
      exact ih h.2 hm

theorem Grows.keysCreated {s s' : TokState} (h : Grows s s') (hs : KeysCreated s) : KeysCreated s' := by
  obtain ⟨hcount, ⟨new, hn, _, hk⟩, _⟩ := h
  intro e he
  rw [hn] at he
  rcases List.mem_append.mp he with he | he
  · obtain ⟨t, n, _, h2, h3⟩ := hk e he
    exact ⟨t, n, h2, h3⟩
  · obtain ⟨t, n, h2, h3⟩ := hs e he
    exact ⟨t, n, by omega, h3⟩

/-- The tokens that have been created keep their meaning. -/
theorem Grows.lookup {s s' : TokState} (h : Grows s s') (hs : KeysCreated s) {key : Str} {token : Token}
    (hl : lookupToken s.tokenMap key = some token) : lookupToken s'.tokenMap key = some token := by
  obtain ⟨hcount, ⟨new, hn, _, hk⟩, _⟩ := h
  have hm : ∃ e ∈ s.tokenMap, e.1 = key := by
    unfold lookupToken at hl
    obtain ⟨e, he, _⟩ := Option.map_eq_some_iff.mp hl
    exact ⟨e, List.mem_of_find?_eq_some he, by simpa using List.find?_some he⟩
  obtain ⟨e, he, rfl⟩ := hm
  obtain ⟨t, n, h1, h2⟩ := hs e he
  unfold lookupToken at hl ⊢
  rw [hn, List.find?_append, List.find?_eq_none.mpr]
  · exact hl
  · intro e' he' heq
    obtain ⟨t', n', h3, _, h5⟩ := hk e' he'
    simp only [beq_iff_eq] at heq
    have := tokenKey_number (h5.symm.trans (heq.trans h2))
    omega

theorem lookup_head (m : List (Str × Token)) (key : Str) (token : Token) :
    lookupToken ((key, token) :: m) key = some token := by
  simp [lookupToken]

/-- The part of the tokenizer lets the state grow. -/
def Growing {α : Type} (m : TokM α) : Prop := ∀ s a s', m s = some (.ok (a, s')) → Grows s s'

theorem TokM.bind_eq {α β : Type} (m : TokM α) (f : α → TokM β) (s : TokState) :
    (m >>= f) s = match m s with
      | none => none
      | some (.ok (a, s')) => f a s'
      | some .err => some .err
      | some .panic => some .panic
      | some .fatal => some .fatal := rfl

theorem TokM.pure_eq {α : Type} (a : α) (s : TokState) : (pure a : TokM α) s = some (.ok (a, s)) := rfl

/-- A sequence returns a value exactly if both parts do. -/
theorem TokM.bind_ok {α β : Type} {m : TokM α} {f : α → TokM β} {s : TokState} {b : β} {s'' : TokState} :
    (m >>= f) s = some (.ok (b, s'')) ↔ ∃ a s', m s = some (.ok (a, s')) ∧ f a s' = some (.ok (b, s'')) := by
  rw [TokM.bind_eq]
  constructor
  · intro h
    split at h
    · exact absurd h (by simp)
    · rename_i a s' hm
      exact ⟨a, s', hm, h⟩
    all_goals exact absurd h (by simp)
  · rintro ⟨a, s', h1, h2⟩
    rw [h1]
    exact h2

theorem Growing.pure {α : Type} (a : α) : Growing (pure a : TokM α) := by
  intro s a' s' h
  cases h
  exact Grows.refl s

theorem Growing.bind {α β : Type} {m : TokM α} {f : α → TokM β} (h : Growing m) (h' : ∀ a, Growing (f a)) :
    Growing (m >>= f) := by
  intro s b s'' hb
  obtain ⟨a, s', h1, h2⟩ := TokM.bind_ok.mp hb
  exact (h s a s' h1).trans (h' a s' b s'' h2)

theorem Growing.panic {α : Type} : Growing (TokM.panic : TokM α) := by
  intro s a s' h
  cases h

theorem Growing.running {α : Type} : Growing (TokM.running : TokM α) := by
  intro s a s' h
  cases h

theorem Growing.lift {α : Type} (r : Res α) : Growing (TokM.lift r) := by
  intro s a s' h
  cases r with
  | ok x =>
    cases h
    exact Grows.refl s
  | err => cases h
  | panic => cases h
  | fatal => cases h

theorem Growing.ite {α : Type} {c : Prop} [Decidable c] {m m' : TokM α} (h : Growing m) (h' : Growing m') :
    Growing (if c then m else m') := by
  split
  · exact h
  · exact h'

/-- A token whose content is parsed after the key has been created. -/
theorem Growing.reserved {α β : Type} {t : Str} {m : Str → TokM α} {token : Str → α → Token} {k : Str → α → TokM β}
    (h : ∀ key, Growing (m key)) (h' : ∀ key a, Growing (k key a)) :
    Growing (getToken t >>= fun key => m key >>= fun a => setRawToken key (token key a) >>= fun _ => k key a) := by
  intro s b s'' hb
  obtain ⟨key, s₁, h1, h2⟩ := TokM.bind_ok.mp hb
  obtain ⟨a, s₂, h3, h4⟩ := TokM.bind_ok.mp h2
  obtain ⟨_, s₃, h5, h6⟩ := TokM.bind_ok.mp h4
  cases h1
  cases h5
  exact (Grows.reserved (h _ _ _ _ h3)).trans (h' _ _ _ _ _ h6)

/-- A token with known content. -/
theorem Growing.token {β : Type} {t : Str} {token : Str → Token} {k : Str → TokM β} (h : ∀ key, Growing (k key)) :
    Growing (getToken t >>= fun key => setRawToken key (token key) >>= fun _ => k key) := by
  intro s b s'' hb
  obtain ⟨key, s₁, h1, h2⟩ := TokM.bind_ok.mp hb
  obtain ⟨_, s₂, h3, h4⟩ := TokM.bind_ok.mp h2
  cases h1
  cases h3
  exact (Grows.reserved (Grows.refl _)).trans (h _ _ _ _ h4)

theorem Growing.addImage (name : Str) : Growing (addImage name) := by
  intro s a s' h
  cases h
  exact ⟨Nat.le_refl _, ⟨[], by simp⟩, ⟨[name], rfl⟩⟩

theorem Growing.map {α β : Type} {o : Option α} {f : α → β} :
    Growing (fun s => o.map fun c => Res.ok (f c, s) : TokM β) := by
  intro s a s' h
  cases o with
  | none => cases h
  | some c =>
    cases h
    exact Grows.refl s

/-! ### The parsing functions -/

theorem growing_parseBoldAndItalic (fuel : Nat) (content : Str) : Growing (parseBoldAndItalic fuel content) :=
  Growing.map (f := fun c => c)

theorem growing_nowikiLoop (fuel : Nat) : ∀ content i, Growing (nowikiLoop fuel content i) := by
  induction fuel with
  | zero => intro _ _; exact Growing.running
  | succ fuel ih =>
    intro content i
    unfold nowikiLoop
    refine Growing.ite (Growing.ite ?_ (ih _ _)) (Growing.pure _)
    split
    · exact Growing.panic
    · exact Growing.token fun key => ih _ _

theorem growing_headingLines {rec : Rec} (h : ∀ c, Growing (rec c)) (depth : Nat) (lines : List Str) :
    Growing (headingLines rec depth lines) := by
  induction lines with
  | nil => exact Growing.pure _
  | cons line rest ih =>
    refine Growing.bind ?_ fun _ => Growing.bind ih fun _ => Growing.pure _
    exact Growing.ite (Growing.reserved (fun _ => h _) (fun _ _ => Growing.pure _)) (Growing.pure _)

theorem growing_headingDepths {rec : Rec} (h : ∀ c, Growing (rec c)) (depth : Nat) :
    ∀ lines, Growing (headingDepths rec depth lines) := by
  induction depth with
  | zero => intro _; exact Growing.pure _
  | succ d ih => intro lines; exact Growing.bind (growing_headingLines h _ _) fun _ => ih _

theorem growing_parseHeadings {rec : Rec} (h : ∀ c, Growing (rec c)) (content : Str) :
    Growing (parseHeadings rec content) :=
  Growing.bind (growing_headingDepths h _ _) fun _ => Growing.pure _

theorem growing_parseMath (content : Str) : Growing (parseMath content) := by
  unfold parseMath
  generalize findMath content 0 = l
  induction l generalizing content with
  | nil => exact Growing.pure _
  | cons m l ih =>
    obtain ⟨whole, inner⟩ := m
    unfold mathLoop
    exact Growing.token fun _ => ih _

theorem growing_linkToken {rec : Rec} (h : ∀ c, Growing (rec c)) (x : LinkSyntax) (target text : Str) :
    Growing (linkToken rec x target text) := by
  unfold linkToken
  refine Growing.ite ?_ (Growing.ite ?_ (Growing.ite ?_ (Growing.pure _)))
  all_goals exact Growing.bind (h _) fun _ => Growing.pure _

theorem growing_linkSegment (env : ParserEnv) {rec : Rec} (h : ∀ c, Growing (rec c)) (x : LinkSyntax) (item : Str) :
    Growing (linkSegment env rec x item) := by
  unfold linkSegment
  refine Growing.ite (Growing.pure _) (Growing.bind (Growing.lift _) fun o => ?_)
  cases o with
  | none => exact Growing.pure _
  | some text =>
    refine Growing.bind (Growing.bind (growing_linkToken h _ _ _) fun o => ?_) fun _ => Growing.pure _
    cases o with
    | none => exact Growing.pure _
    | some p => exact Growing.token fun _ => Growing.pure _

theorem growing_parseLink (env : ParserEnv) {rec : Rec} (h : ∀ c, Growing (rec c)) (x : LinkSyntax) (content : Str) :
    Growing (parseLink env rec x content) := by
  unfold parseLink
  have key : ∀ l, Growing (linkSegments env rec x l) := by
    intro l
    induction l with
    | nil => exact Growing.pure _
    | cons a l ih => exact Growing.bind (growing_linkSegment env h _ _) fun _ => Growing.bind ih fun _ => Growing.pure _
  exact Growing.bind (key _) fun _ => Growing.pure _

theorem growing_refDefinitions (contents : List ((Str × Nat) × Str)) (group : Str) (n k : Nat) :
    Growing (refDefinitions contents group n k) := by
  induction k with
  | zero => exact Growing.pure _
  | succ k ih =>
    unfold refDefinitions
    dsimp only
    split
    · exact ih
    · exact Growing.token fun _ => Growing.bind ih fun _ => Growing.pure _

theorem growing_refUsage (within : Bool) (number : Nat) : Growing (refUsage within number) := by
  unfold refUsage
  exact Growing.ite (Growing.pure _) (Growing.token fun _ => Growing.pure _)

theorem growing_refTag {rec : Rec} (h : ∀ c, Growing (rec c)) (content : Str) (i startEnd : Nat) (st : RefState) :
    Growing (refTag rec content i startEnd st) := by
  unfold refTag
  refine Growing.ite ?_ (Growing.ite ?_ ?_)
  · refine Growing.bind (Growing.lift _) fun _ => Growing.bind ?_ fun _ => Growing.pure _
    unfold refEndPlaceholder
    exact Growing.bind (growing_refDefinitions _ _ _ _) fun _ => Growing.pure _
  · exact Growing.bind (Growing.lift _) fun _ => Growing.pure _
  · refine Growing.bind (Growing.lift _) fun _ => Growing.bind (Growing.lift _) fun _ => Growing.ite ?_ ?_
    · unfold namedReferenceUsage
      exact Growing.ite (Growing.bind (growing_refUsage _ _) fun _ => Growing.pure _) (Growing.pure _)
    · split
      · exact Growing.panic
      · unfold referenceDefinition
        exact Growing.bind (h _) fun _ => Growing.bind (growing_refUsage _ _) fun _ => Growing.pure _

theorem growing_refLoop {rec : Rec} (h : ∀ c, Growing (rec c)) (fuel : Nat) :
    ∀ content i st, Growing (refLoop rec fuel content i st) := by
  induction fuel with
  | zero => intro _ _ _; exact Growing.running
  | succ fuel ih =>
    intro content i st
    unfold refLoop
    refine Growing.ite (Growing.ite ?_ (ih _ _ _)) (Growing.pure _)
    split
    · exact Growing.panic
    · exact Growing.bind (growing_refTag h _ _ _ _) fun _ => ih _ _ _

theorem growing_escapeImages (env : ParserEnv) (content : Str) : Growing (escapeImages env content) := by
  unfold escapeImages
  dsimp only
  refine Growing.ite (Growing.pure _) (Growing.ite Growing.panic ?_)
  exact Growing.bind (Growing.addImage _) fun _ => Growing.pure _

theorem growing_galleryImage (env : ParserEnv) (line : Str) : Growing (galleryImage env line) :=
  Growing.bind (growing_escapeImages _ _) fun _ => Growing.pure _

theorem growing_galleryLines (env : ParserEnv) (lines : List Str) :
    ∀ within, Growing (galleryLines env lines within) := by
  induction lines with
  | nil => intro _; exact Growing.pure _
  | cons line rest ih =>
    intro within
    unfold galleryLines
    dsimp only
    refine Growing.ite (Growing.ite (ih _) (Growing.bind (ih _) fun _ => Growing.pure _)) ?_
    refine Growing.ite (Growing.ite (ih _) (Growing.bind (growing_galleryImage _ _) fun _ => Growing.bind (ih _) fun _ => Growing.pure _)) (Growing.bind (ih _) fun _ => Growing.pure _)

theorem growing_imageMapLines (env : ParserEnv) (n : Nat) :
    ∀ lines : List Str, lines.length ≤ n → ∀ within, Growing (imageMapLines env lines within) := by
  induction n with
  | zero =>
    intro lines hl within
    have : lines = [] := List.length_eq_zero_iff.mp (by omega)
    subst this
    exact Growing.pure _
  | succ n ih =>
    intro lines hl within
    cases lines with
    | nil => exact Growing.pure _
    | cons line rest =>
      have hr : rest.length ≤ n := by simpa using hl
      unfold imageMapLines
      refine Growing.ite (ih _ hr _) (Growing.ite (ih _ hr _) ?_)
      split
      · exact Growing.bind (ih _ hr _) fun _ => Growing.pure _
      · refine Growing.ite ?_ ?_
        · cases rest with
          | nil => exact Growing.panic
          | cons next rest =>
            exact Growing.bind (growing_escapeImages _ _) fun _ =>
              Growing.bind (ih _ (by simp at hr; omega) _) fun _ => Growing.pure _
        · exact Growing.bind (growing_escapeImages _ _) fun _ => Growing.bind (ih _ hr _) fun _ => Growing.pure _

theorem growing_imageOptions {rec : Rec} (h : ∀ c, Growing (rec c)) (l : List Str) :
    ∀ o, Growing (imageOptions rec l o) := by
  induction l with
  | nil => intro _; exact Growing.pure _
  | cons a l ih =>
    intro o
    unfold imageOptions
    exact Growing.ite (ih _) (Growing.ite (ih _) (Growing.ite (Growing.bind (h _) fun _ => ih _) (ih _)))

theorem growing_imageToken (env : ParserEnv) {rec : Rec} (h : ∀ c, Growing (rec c)) (content : Str) :
    Growing (imageToken env rec content) := by
  unfold imageToken
  dsimp only
  split
  · exact Growing.panic
  · exact Growing.bind (growing_imageOptions h _ _) fun _ => Growing.token fun _ => Growing.pure _

theorem growing_imageLoop (env : ParserEnv) {rec : Rec} (h : ∀ c, Growing (rec c)) (fuel : Nat) :
    ∀ content, Growing (imageLoop env rec fuel content) := by
  induction fuel with
  | zero => intro _; exact Growing.running
  | succ fuel ih =>
    intro content
    unfold imageLoop
    split
    · exact Growing.pure _
    · split
      · exact Growing.panic
      · refine Growing.bind (h _) fun _ => Growing.bind (growing_escapeImages _ _) fun _ => ?_
        refine Growing.bind (Growing.ite (Growing.pure _) (growing_imageToken env h _) : Growing (imageKey env rec _)) fun _ => ?_
        exact Growing.ite (ih _) Growing.panic

theorem growing_lineItems {rec : Rec} (h : ∀ c, Growing (rec c)) (c : Byte) (text : Str) :
    Growing (lineItems rec c text) := by
  unfold lineItems
  refine Growing.ite ?_ (Growing.ite (Growing.bind (h _) fun _ => Growing.pure _) (Growing.bind (h _) fun _ => Growing.pure _))
  split
  · exact Growing.bind (h _) fun _ => Growing.pure _
  · exact Growing.bind (h _) fun _ => Growing.bind (h _) fun _ => Growing.pure _

theorem growing_lists {rec : Rec} (h : ∀ c, Growing (rec c)) (fuel : Nat) :
    (∀ lines p, Growing (tokenizeList rec fuel lines p)) ∧
    (∀ p lines items, Growing (listItems rec fuel p lines items)) := by
  induction fuel with
  | zero =>
    refine ⟨fun _ _ => ?_, fun _ _ _ => ?_⟩
    · unfold tokenizeList; exact Growing.running
    · unfold listItems; exact Growing.running
  | succ fuel ih =>
    refine ⟨fun lines p => ?_, fun p lines items => ?_⟩
    · unfold tokenizeList
      exact Growing.bind (ih.2 _ _ _) fun _ => Growing.token fun _ => Growing.pure _
    · cases lines with
      | nil => unfold listItems; exact Growing.pure _
      | cons l rest =>
        cases l with
        | nil => unfold listItems; exact ih.2 _ _ _
        | cons c text =>
          unfold listItems
          cases text with
          | nil => exact Growing.bind (growing_lineItems h _ _) fun _ => ih.2 _ _ _
          | cons d text =>
            refine Growing.ite ?_ ?_
            · exact Growing.bind (ih.1 _ _) fun _ => ih.2 _ _ _
            · exact Growing.bind (growing_lineItems h _ _) fun _ => ih.2 _ _ _

theorem growing_parseListLines {rec : Rec} (h : ∀ c, Growing (rec c)) (fuel : Nat) :
    ∀ lines, Growing (parseListLines rec fuel lines) := by
  induction fuel with
  | zero => intro _; exact Growing.running
  | succ fuel ih =>
    intro lines
    cases lines with
    | nil => exact Growing.pure _
    | cons line rest =>
      unfold parseListLines
      split
      · refine Growing.ite (Growing.bind ((growing_lists h fuel).1 _ _) fun _ => Growing.bind (ih _) fun _ => Growing.pure _) ?_
        exact Growing.bind (ih _) fun _ => Growing.pure _
      · exact Growing.bind (ih _) fun _ => Growing.pure _

theorem growing_tableEntry {rec : Rec} (h : ∀ c, Growing (rec c)) (content : Str) : Growing (tableEntry rec content) := by
  unfold tableEntry
  split
  · exact Growing.bind (h _) fun _ => Growing.pure _
  · exact Growing.bind (h _) fun _ => Growing.pure _

theorem growing_tableRow {rec : Rec} (h : ∀ c, Growing (rec c)) (fuel : Nat) :
    ∀ lines, Growing (tableRow rec fuel lines) := by
  induction fuel with
  | zero => intro _; exact Growing.running
  | succ fuel ih =>
    intro lines
    cases lines with
    | nil => exact Growing.pure _
    | cons line rest =>
      unfold tableRow
      refine Growing.ite (Growing.pure _) (Growing.bind (Growing.lift _) fun _ => ?_)
      exact Growing.bind (growing_tableEntry h _) fun _ => Growing.bind (ih _) fun _ => Growing.pure _

theorem growing_tableRows {rec : Rec} (h : ∀ c, Growing (rec c)) (fuel : Nat) :
    ∀ lines caption, Growing (tableRows rec fuel lines caption) := by
  induction fuel with
  | zero => intro _ _; exact Growing.running
  | succ fuel ih =>
    intro lines caption
    cases lines with
    | nil => exact Growing.pure _
    | cons line rest =>
      have row : ∀ l, Growing (tableRow rec fuel l >>= fun p => tableRows rec fuel p.2 caption >>= fun q =>
          (pure (p.1 :: q.1, q.2) : TokM _)) :=
        fun l => Growing.bind (growing_tableRow h _ _) fun _ => Growing.bind (ih _ _) fun _ => Growing.pure _
      unfold tableRows
      dsimp only
      refine Growing.ite ?_ (Growing.ite (row _) (Growing.ite ?_ (Growing.ite (Growing.pure _) (Growing.ite (row _) (ih _ _)))))
      · unfold tableCaption
        refine Growing.bind (Growing.bind (Growing.lift _) fun _ => ?_) fun _ => ih _ _
        exact Growing.bind (growing_tableEntry h _) fun _ => Growing.pure _
      · cases rest with
        | nil => exact Growing.panic
        | cons next rest => exact Growing.ite (row _) (ih _ _)

theorem growing_tokenizeTable {rec : Rec} (h : ∀ c, Growing (rec c)) (fuel : Nat) (content : Str) :
    Growing (tokenizeTable rec fuel content) :=
  Growing.bind (growing_tableRows h _ _ _) fun _ => Growing.pure _

theorem growing_tables {rec : Rec} (h : ∀ c, Growing (rec c)) (fuel : Nat) :
    (∀ line rest, Growing (tokenizeTables rec fuel line rest)) ∧ (∀ lines, Growing (tableBody rec fuel lines)) := by
  induction fuel with
  | zero =>
    refine ⟨fun _ _ => ?_, fun _ => ?_⟩
    · unfold tokenizeTables; exact Growing.running
    · unfold tableBody; exact Growing.running
  | succ fuel ih =>
    refine ⟨fun line rest => ?_, fun lines => ?_⟩
    · unfold tokenizeTables
      refine Growing.bind (ih.2 _) fun _ => Growing.bind (growing_tokenizeTable h _ _) fun _ => ?_
      exact Growing.token fun _ => Growing.pure _
    · cases lines with
      | nil => unfold tableBody; exact Growing.pure _
      | cons line rest =>
        unfold tableBody
        dsimp only
        refine Growing.ite ?_ (Growing.ite (Growing.pure _) ?_)
        · exact Growing.bind (ih.1 _ _) fun _ => Growing.bind (ih.2 _) fun _ => Growing.pure _
        · exact Growing.bind (ih.2 _) fun _ => Growing.pure _

theorem growing_tableLoop {rec : Rec} (h : ∀ c, Growing (rec c)) (fuel : Nat) :
    ∀ lines, Growing (tableLoop rec fuel lines) := by
  induction fuel with
  | zero => intro _; exact Growing.running
  | succ fuel ih =>
    intro lines
    cases lines with
    | nil => exact Growing.pure _
    | cons line rest =>
      unfold tableLoop
      split
      · exact Growing.bind ((growing_tables h fuel).1 _ _) fun _ => Growing.bind (ih _) fun _ => Growing.pure _
      · exact Growing.bind (ih _) fun _ => Growing.pure _

theorem growing_tokenizePass (env : ParserEnv) {rec : Rec} (h : ∀ c, Growing (rec c)) (fuel : Nat) (content : Str) :
    Growing (tokenizePass env rec fuel content) := by
  unfold tokenizePass
  refine Growing.bind (growing_nowikiLoop _ _ _) fun _ => ?_
  refine Growing.bind (growing_parseBoldAndItalic _ _) fun _ => ?_
  refine Growing.bind (growing_parseHeadings h _) fun _ => ?_
  refine Growing.bind (growing_refLoop h _ _ _ _) fun _ => ?_
  refine Growing.bind (growing_parseLink env h _ _) fun _ => ?_
  refine Growing.bind (Growing.bind (growing_galleryLines env _ _) fun _ => Growing.pure _) fun _ => ?_
  refine Growing.bind (Growing.bind (growing_imageMapLines env _ _ (Nat.le_refl _) _) fun _ => Growing.pure _) fun _ => ?_
  refine Growing.bind (growing_imageLoop env h _ _) fun _ => ?_
  refine Growing.bind (growing_parseLink env h _ _) fun _ => ?_
  refine Growing.bind (growing_parseMath _) fun _ => ?_
  refine Growing.bind (Growing.bind (growing_parseListLines h _ _) fun _ => Growing.pure _) fun _ => ?_
  refine Growing.bind (Growing.bind (growing_tableLoop h _ _) fun _ => Growing.pure _) fun _ => ?_
  exact Growing.pure _

theorem growing_tokenizeContent (env : ParserEnv) (fuel : Nat) : ∀ content, Growing (tokenizeContent env fuel content) := by
  induction fuel with
  | zero => intro _; exact Growing.running
  | succ fuel ih =>
    intro content
    unfold tokenizeContent
    refine Growing.bind (growing_tokenizePass env ih _ _) fun _ => ?_
    exact Growing.ite (Growing.pure _) (ih _)

end Verif.Model
