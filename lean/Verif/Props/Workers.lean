import Verif.Model.Workers
import Mathlib.Data.List.Perm.Basic
import Mathlib.Data.List.Nodup

/-! # C19, C20: parallel processing of the articles -/

namespace Verif.Props

open Verif.Model

variable {articles : List Str} {cap : Nat} {Result : Str → Option Str → Prop}

/-! ## Termination -/

def _root_.Verif.Model.Worker.weight : Worker → Nat
  | .idle => 1
  | .busy _ => 2
  | .done => 0

def weights (l : List Worker) : Nat := (l.map Model.Worker.weight).sum

theorem weights_set {l : List Worker} {i : Nat} {x y : Worker} (h : l[i]? = some x) :
    weights (l.set i y) + x.weight = weights l + y.weight := by
  induction l generalizing i with
  | nil => simp at h
  | cons a l ih =>
    cases i with
    | zero =>
      simp only [List.getElem?_cons_zero, Option.some.injEq] at h
      subst h
      simp only [List.set_cons_zero, weights, List.map_cons, List.sum_cons]
      omega
    | succ i =>
      simp only [List.getElem?_cons_succ] at h
      have := ih h
      simp only [List.set_cons_succ, weights, List.map_cons, List.sum_cons] at this ⊢
      omega

/-- Work that is left. -/
def _root_.Verif.Model.Pool.measure (s : Pool) : Nat :=
  3 * s.toSend.length + 2 * s.chan.length + weights s.workers + (if s.closed then 0 else 1) +
    (if s.status = .running then 1 else 0)

theorem step_measure {s t : Pool} (h : PoolStep articles cap Result s t) : Model.Pool.measure t < Model.Pool.measure s := by
  cases h with
  | send h1 h2 h3 => simp [Model.Pool.measure, h1, h2]; omega
  | close h1 h2 h3 => simp [Model.Pool.measure, h1, h3]
  | @take i a t h1 h2 h3 =>
    have := weights_set (y := .busy a) h2
    simp only [Model.Worker.weight] at this
    simp [Model.Pool.measure, h1, h3]; omega
  | finish h1 h2 h3 =>
    have := weights_set (y := .idle) h2
    simp only [Model.Worker.weight] at this
    simp [Model.Pool.measure, h1]; omega
  | fail h1 h2 h3 => simp [Model.Pool.measure, h1]
  | exit h1 h2 h3 h4 =>
    have := weights_set (y := .done) h2
    simp only [Model.Worker.weight] at this
    simp [Model.Pool.measure, h1]; omega
  | wait h1 h2 h3 => simp [Model.Pool.measure, h1]

theorem run_measure {n : Nat} {s t : Pool} (h : PoolRun articles cap Result n s t) :
    n + Model.Pool.measure t ≤ Model.Pool.measure s := by
  induction h with
  | zero => simp
  | step _ hs ih => have := step_measure hs; omega

/-- **C19** (end) No execution is longer than three steps per article, one per worker, and two more: the program
always comes to an end, whatever the scheduling. -/
theorem C19_terminates (threads n : Nat) (s : Pool)
    (h : PoolRun articles cap Result n (Pool.start articles threads) s) :
    n ≤ 3 * articles.length + threads + 2 := by
  have := run_measure h
  have hw : weights (List.replicate threads Worker.idle) = threads := by
    simp [weights, Model.Worker.weight]
  simp only [Model.Pool.measure, Pool.start, hw, List.length_nil] at this
  simp at this
  omega

/-! ## The invariant -/

/-- Articles in the hands of workers. -/
def inWork : List Worker → List Str
  | [] => []
  | .busy a :: l => a :: inWork l
  | _ :: l => inWork l

theorem inWork_take {l : List Worker} {i : Nat} (a : Str) (h : l[i]? = some .idle) :
    (inWork (l.set i (.busy a))).Perm (a :: inWork l) := by
  induction l generalizing i with
  | nil => simp at h
  | cons x l ih =>
    cases i with
    | zero =>
      simp only [List.getElem?_cons_zero, Option.some.injEq] at h
      subst h
      exact List.Perm.refl _
    | succ i =>
      simp only [List.getElem?_cons_succ] at h
      cases x with
      | busy b => exact (List.Perm.cons b (ih h)).trans (List.Perm.swap a b _)
      | idle => exact ih h
      | done => exact ih h

theorem inWork_finish {l : List Worker} {i : Nat} {a : Str} (h : l[i]? = some (.busy a)) :
    (inWork l).Perm (a :: inWork (l.set i .idle)) := by
  induction l generalizing i with
  | nil => simp at h
  | cons x l ih =>
    cases i with
    | zero =>
      simp only [List.getElem?_cons_zero, Option.some.injEq] at h
      subst h
      exact List.Perm.refl _
    | succ i =>
      simp only [List.getElem?_cons_succ] at h
      cases x with
      | busy b => exact (List.Perm.cons b (ih h)).trans (List.Perm.swap a b _)
      | idle => exact ih h
      | done => exact ih h

theorem inWork_exit {l : List Worker} {i : Nat} (h : l[i]? = some .idle) : inWork (l.set i .done) = inWork l := by
  induction l generalizing i with
  | nil => simp at h
  | cons x l ih =>
    cases i with
    | zero =>
      simp only [List.getElem?_cons_zero, Option.some.injEq] at h
      subst h
      rfl
    | succ i =>
      simp only [List.getElem?_cons_succ] at h
      cases x <;> simp [inWork, ih h]

theorem inWork_done {l : List Worker} (h : ∀ x ∈ l, x = .done) : inWork l = [] := by
  induction l with
  | nil => rfl
  | cons x l ih =>
    have := h x (by simp)
    subst this
    exact ih fun y hy => h y (by simp [hy])

structure PoolInv (articles : List Str) (threads : Nat) (Result : Str → Option Str → Prop) (s : Pool) : Prop where
  all : (s.log ++ inWork s.workers ++ s.chan ++ s.toSend).Perm articles
  threads_eq : s.workers.length = threads
  slots_length : s.slots.length = articles.length
  first : ∀ i a, articles[i]? = some a → articleNumber articles a = i → a ∈ s.log →
    ∃ r, s.slots[i]? = some r ∧ Result a (some r)
  fresh : ∀ i a, articles[i]? = some a → (articleNumber articles a ≠ i ∨ a ∉ s.log) → s.slots[i]? = some []
  closed_empty : s.closed = true → s.toSend = []
  done_closed : ∀ x ∈ s.workers, x = .done → s.closed = true ∧ s.chan = []
  finished : s.status = .finished → s.closed = true ∧ ∀ x ∈ s.workers, x = .done
  failed : s.status = .failed → ∃ a ∈ articles, Result a none

theorem inv_start (threads : Nat) : PoolInv articles threads Result (Pool.start articles threads) := by
  have hi : inWork (List.replicate threads Worker.idle) = [] := by
    induction threads with
    | zero => rfl
    | succ n ih => exact ih
  constructor
  · simp [Pool.start, hi]
  · simp [Pool.start]
  · simp [Pool.start]
  · intro i a _ _ h; simp [Pool.start] at h
  · intro i a h _
    obtain ⟨hl, -⟩ := List.getElem?_eq_some_iff.mp h
    simp [Pool.start, hl]
  · intro h; simp [Pool.start] at h
  · intro x hx h
    subst h
    simp [Pool.start] at hx
  · intro h; simp [Pool.start] at h
  · intro h; simp [Pool.start] at h

theorem idx_first {articles : List Str} {a : Str} (hm : a ∈ articles) :
    articles[articleNumber articles a]? = some a := by
  unfold articleNumber
  have hl := List.idxOf_lt_length_of_mem hm
  rw [List.getElem?_eq_getElem hl]
  simp

theorem inv_step {threads : Nat} {s t : Pool} (hi : PoolInv articles threads Result s)
    (h : PoolStep articles cap Result s t) : PoolInv articles threads Result t := by
  cases h with
  | @send a rest h1 h2 h3 =>
    refine { hi with all := ?_, closed_empty := ?_, done_closed := ?_, finished := ?_ }
    · have := hi.all
      rw [h2] at this
      simpa [List.append_assoc] using this
    · intro hc
      have := hi.closed_empty hc
      rw [h2] at this; cases this
    · intro x hx hd
      have := hi.closed_empty (hi.done_closed x hx hd).1
      rw [h2] at this; cases this
    · intro hf; exact absurd hf (by simp [h1])
  | close h1 h2 h3 =>
    refine { hi with closed_empty := fun _ => h2, done_closed := ?_, finished := ?_ }
    · intro x hx hd
      exact ⟨rfl, (hi.done_closed x hx hd).2⟩
    · intro hf; exact absurd hf (by simp [h1])
  | @take i a rest h1 h2 h3 =>
    refine { hi with all := ?_, threads_eq := by simp [hi.threads_eq], done_closed := ?_, finished := ?_ }
    · have := hi.all
      rw [h3] at this
      refine List.Perm.trans ?_ this
      have hp := inWork_take a h2
      simp only [List.append_assoc]
      refine List.Perm.append_left _ ?_
      refine (List.Perm.append_right _ hp).trans ?_
      simpa using (List.perm_middle (l₁ := inWork s.workers) (l₂ := rest ++ s.toSend) (a := a)).symm
    · intro x hx hd
      rcases List.mem_or_eq_of_mem_set hx with hx | hx
      · have := (hi.done_closed x hx hd).2
        rw [h3] at this; cases this
      · rw [hx] at hd; cases hd
    · intro hf; exact absurd hf (by simp [h1])
  | @finish i a r h1 h2 h3 =>
    have hperm := inWork_finish h2
    have hain : a ∈ inWork s.workers := hperm.mem_iff.mpr (by simp)
    have hmem : a ∈ articles := hi.all.mem_iff.mp (by simp [hain])
    have hlt : articleNumber articles a < articles.length := List.idxOf_lt_length_of_mem hmem
    refine { hi with
      all := ?_, threads_eq := by simp [hi.threads_eq], slots_length := by simp [hi.slots_length]
      first := ?_, fresh := ?_, done_closed := ?_, finished := ?_ }
    · refine List.Perm.trans ?_ hi.all
      simp only [List.append_assoc]
      refine List.Perm.append_left _ ?_
      simp only [List.singleton_append]
      exact List.Perm.append_right (s.chan ++ s.toSend) hperm.symm
    · intro j b hb hfirst hlog
      simp only [List.mem_append, List.mem_singleton] at hlog
      by_cases hab : b = a
      · subst hab
        refine ⟨r, ?_, h3⟩
        rw [hfirst, List.getElem?_set_self]
        rw [hi.slots_length, ← hfirst]; exact hlt
      · obtain ⟨r', h4, h5⟩ := hi.first j b hb hfirst (hlog.resolve_right hab)
        refine ⟨r', ?_, h5⟩
        rw [List.getElem?_set_ne, h4]
        intro he
        have h6 := idx_first hmem
        rw [he, hb] at h6
        exact hab (Option.some.inj h6)
    · intro j b hb hor
      have hne : articleNumber articles a ≠ j := by
        intro he
        have h6 := idx_first hmem
        rw [he, hb] at h6
        have hba := Option.some.inj h6
        subst hba
        rcases hor with h | h
        · exact h he
        · exact h (by simp)
      rw [List.getElem?_set_ne hne]
      refine hi.fresh j b hb ?_
      rcases hor with h | h
      · exact Or.inl h
      · exact Or.inr fun hl => h (by simp [hl])
    · intro x hx hd
      rcases List.mem_or_eq_of_mem_set hx with hx | hx
      · exact hi.done_closed x hx hd
      · rw [hx] at hd; cases hd
    · intro hf; exact absurd hf (by simp [h1])
  | @fail i a h1 h2 h3 =>
    have hain : a ∈ inWork s.workers := (inWork_finish h2).mem_iff.mpr (by simp)
    have hmem : a ∈ articles := hi.all.mem_iff.mp (by simp [hain])
    exact { hi with finished := fun hf => by simp at hf, failed := fun _ => ⟨a, hmem, h3⟩ }
  | @exit i h1 h2 h3 h4 =>
    refine { hi with all := ?_, threads_eq := by simp [hi.threads_eq], done_closed := ?_, finished := ?_ }
    · rw [inWork_exit h2]; exact hi.all
    · intro x hx hd; exact ⟨h3, h4⟩
    · intro hf; exact absurd hf (by simp [h1])
  | wait h1 h2 h3 =>
    exact { hi with finished := fun _ => ⟨h2, h3⟩, failed := fun hf => by simp at hf }

theorem inv_run {threads n : Nat} {s : Pool} (h : PoolRun articles cap Result n (Pool.start articles threads) s) :
    PoolInv articles threads Result s := by
  generalize hs : Pool.start articles threads = s0 at h
  induction h with
  | zero => subst hs; exact inv_start threads
  | step _ hst ih => exact inv_step (ih hs) hst

/-- **C19** (progress) With at least one worker the program is never stuck: as long as it is running, some thread
can make a step. Together with `C19_terminates`: every execution ends with a finished book or with an error. -/
theorem C19_never_stuck (threads n : Nat) (s : Pool) (hthreads : 0 < threads)
    (htotal : ∀ a ∈ articles, ∃ r, Result a r)
    (h : PoolRun articles threads Result n (Pool.start articles threads) s) (hrun : s.status = .running) :
    ∃ t, PoolStep articles threads Result s t := by
  have hi := inv_run h
  by_cases hbusy : ∃ (i : Nat) (a : Str), s.workers[i]? = some (.busy a)
  · obtain ⟨i, a, hb⟩ := hbusy
    have hain : a ∈ inWork s.workers := (inWork_finish hb).mem_iff.mpr (by simp)
    obtain ⟨r, hr⟩ := htotal a (hi.all.mem_iff.mp (by simp [hain]))
    cases r with
    | none => exact ⟨_, .fail hrun hb hr⟩
    | some r => exact ⟨_, .finish hrun hb hr⟩
  · by_cases hidle : ∃ i : Nat, s.workers[i]? = some .idle
    · obtain ⟨i, hidle⟩ := hidle
      cases hc : s.chan with
      | cons a t => exact ⟨_, .take hrun hidle hc⟩
      | nil =>
        cases ht : s.toSend with
        | cons a t => exact ⟨_, .send hrun ht (by rw [hc]; exact hthreads)⟩
        | nil =>
          cases hcl : s.closed with
          | false => exact ⟨_, .close hrun ht hcl⟩
          | true => exact ⟨_, .exit hrun hidle hcl hc⟩
    · have hdone : ∀ x ∈ s.workers, x = .done := by
        intro x hx
        obtain ⟨i, hi'⟩ := List.mem_iff_getElem?.mp hx
        cases x with
        | done => rfl
        | idle => exact absurd ⟨i, hi'⟩ hidle
        | busy a => exact absurd ⟨i, a, hi'⟩ hbusy
      have hne : s.workers ≠ [] := by
        intro he
        have := hi.threads_eq
        rw [he] at this
        simp at this
        omega
      obtain ⟨x, hx⟩ := List.exists_mem_of_ne_nil _ hne
      exact ⟨_, .wait hrun (hi.done_closed x hx (hdone x hx)).1 hdone⟩

/-- **C19** (result) When the book is generated, every article of the project was processed exactly once, and the
list of files has at each position a result of the processing of the article at this position - for every number
of workers and every interleaving. -/
theorem C19_files_in_article_order (threads n : Nat) (s : Pool) (hthreads : 0 < threads) (hnd : articles.Nodup)
    (h : PoolRun articles threads Result n (Pool.start articles threads) s) (hfin : s.status = .finished) :
    s.log.Perm articles ∧ s.slots.length = articles.length ∧
    ∀ (i : Nat) (a : Str), articles[i]? = some a → ∃ r, s.slots[i]? = some r ∧ Result a (some r) := by
  have hi := inv_run h
  obtain ⟨h1, h2⟩ := hi.finished hfin
  have hne : s.workers ≠ [] := by
    intro he
    have := hi.threads_eq
    rw [he] at this
    simp at this
    omega
  obtain ⟨x, hx⟩ := List.exists_mem_of_ne_nil _ hne
  have hlog : s.log.Perm articles := by
    have := hi.all
    rwa [inWork_done h2, (hi.done_closed x hx (h2 x hx)).2, hi.closed_empty h1, List.append_nil, List.append_nil,
      List.append_nil] at this
  refine ⟨hlog, hi.slots_length, ?_⟩
  intro i a ha
  refine hi.first i a ha ?_ (hlog.mem_iff.mpr (List.mem_of_getElem? ha))
  obtain ⟨hl, he⟩ := List.getElem?_eq_some_iff.mp ha
  subst he
  exact hnd.idxOf_getElem i hl

/-- **C19** (errors) The program ends with an error only if the processing of an article of the project did. -/
theorem C19_fails_only_by_article (threads n : Nat) (s : Pool)
    (h : PoolRun articles threads Result n (Pool.start articles threads) s) (hfail : s.status = .failed) :
    ∃ a ∈ articles, Result a none :=
  (inv_run h).failed hfail

/-! ## C20 -/

/-- **C20** for projects without repeated article, when no HTML file is present or the regeneration is forced
(or for statistics): the book is made from the generated file of every article. (Missing: repeated articles and
present HTML files, for which the claim is false, see the next two theorems.) -/
theorem C20_every_article_has_file_partial (o : ArticleOracle) (threads n : Nat) (s : Pool) (hthreads : 0 < threads)
    (hnd : articles.Nodup) (hre : ∀ a ∈ articles, shouldRecreateHtml o a = true)
    (h : PoolRun articles threads (fun a r => r = processArticle o a) n (Pool.start articles threads) s)
    (hfin : s.status = .finished) :
    s.slots.map some = articles.map o.generate := by
  obtain ⟨-, hlen, hall⟩ := C19_files_in_article_order threads n s hthreads hnd h hfin
  apply List.ext_getElem?
  intro i
  rw [List.getElem?_map, List.getElem?_map]
  cases ha : articles[i]? with
  | none =>
    have : s.slots[i]? = none := by
      rw [List.getElem?_eq_none_iff] at ha ⊢
      omega
    rw [this]; rfl
  | some a =>
    obtain ⟨r, h1, h2⟩ := hall i a ha
    rw [h1]
    have hr := hre a (List.mem_of_getElem? ha)
    unfold processArticle at h2
    rw [hr] at h2
    simp only [Option.map_some]
    exact congrArg some h2

/-- **C20** fails for repeated articles: in every execution all but the first of equal articles get an empty file
name, whatever the processing yields. -/
theorem C20_repeated_article_has_no_file (threads n i j : Nat) (a : Str) (s : Pool)
    (h : PoolRun articles threads Result n (Pool.start articles threads) s)
    (hi : articles[i]? = some a) (hj : articles[j]? = some a) (hij : i < j) : s.slots[j]? = some [] := by
  refine (inv_run h).fresh j a hj (Or.inl ?_)
  intro he
  unfold articleNumber at he
  have : articles.idxOf a ≤ i := by
    obtain ⟨hl, heq⟩ := List.getElem?_eq_some_iff.mp hi
    by_contra hc
    have := List.not_of_lt_findIdx (p := (· == a)) (xs := articles) (i := i) (by
      unfold List.idxOf at hc; omega)
    simp [heq] at this
  omega

/-- **C20** fails for present HTML files: the file is not used. -/
theorem C20_present_html_is_dropped (o : ArticleOracle) (threads n i : Nat) (a : Str) (s : Pool)
    (hthreads : 0 < threads) (hnd : articles.Nodup)
    (h : PoolRun articles threads (fun a r => r = processArticle o a) n (Pool.start articles threads) s)
    (hfin : s.status = .finished) (ha : articles[i]? = some a) (hex : o.htmlExists a = true)
    (hf : o.force = false) (hs : o.stats = false) : s.slots[i]? = some [] := by
  obtain ⟨-, -, hall⟩ := C19_files_in_article_order threads n s hthreads hnd h hfin
  obtain ⟨r, h1, h2⟩ := hall i a ha
  simp [processArticle, shouldRecreateHtml, hex, hf, hs] at h2
  rw [h1, h2]

/-! ## An execution with two workers that finish in the wrong order -/

def demoArticles : List Str := [b!"A", b!"B"]
def demoResult : Str → Option Str → Prop := fun a r => r = some (a ++ b!".html")

example : ∃ n s, PoolRun demoArticles 2 demoResult n (Pool.start demoArticles 2) s ∧ s.status = .finished ∧
    s.log = [b!"B", b!"A"] ∧ s.slots = [b!"A.html", b!"B.html"] := by
  refine ⟨_, _, .step (.step (.step (.step (.step (.step (.step (.step (.step (.step (.zero _)
    (.send rfl rfl (by decide))) (.send rfl rfl (by decide))) (.take (i := 0) rfl rfl rfl)) (.take (i := 1) rfl rfl rfl))
    (.finish (i := 1) (a := b!"B") rfl rfl rfl)) (.close rfl rfl rfl)) (.finish (i := 0) (a := b!"A") rfl rfl rfl))
    (.exit (i := 0) rfl rfl rfl rfl)) (.exit (i := 1) rfl rfl rfl rfl)) (.wait rfl rfl (by decide)), rfl, rfl, ?_⟩
  decide

example : demoArticles.Nodup ∧ ∀ a ∈ demoArticles, ∃ r, demoResult a r := ⟨by decide, fun a _ => ⟨_, rfl⟩⟩

/-- Both failures of C20 at once: the article is listed twice, or its HTML file is present. -/
example : ([b!"A", b!"A"] : List Str)[0]? = some b!"A" ∧ ([b!"A", b!"A"] : List Str)[1]? = some b!"A" ∧
    processArticle ⟨false, false, fun _ => true, fun a => some (a ++ b!".html")⟩ b!"A" = some [] ∧
    processArticle ⟨true, false, fun _ => true, fun a => some (a ++ b!".html")⟩ b!"A" = some b!"A.html" := by
  decide

end Verif.Props
