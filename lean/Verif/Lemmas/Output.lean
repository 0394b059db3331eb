import Verif.Spec.Output
import Verif.Lemmas.Config

/-! Facts about paths and the output file. -/

namespace Verif.Lemmas
open Verif.Go Verif.Model Verif.Spec
open scoped List

theorem cleanElems_abs {p : Str} (h : isAbs p = true) : cleanElems p = elements p := by
  unfold cleanElems elements
  rw [h, (walk_eq (by simp)).1]
  rfl

theorem place_abs {cwd p : Str} (h : isAbs p = true) : place cwd p = elements p := by
  unfold place abs
  rw [if_pos h, cleanElems_clean, cleanElems_abs h]

theorem elements_append (a b : Str) : elements (a ++ sepB :: b) = walk (elements a) (split b b!"/") := by
  unfold elements
  rw [split_singleton_append_split, walk_append]

/-- A path with its last element. -/
theorem split_last {p : Str} (h : isAbs p = true) : ∃ a b, p = a ++ sepB :: b ∧ sepB ∉ b ∧ dir p = clean (a ++ [sepB]) ∧ hasSuffix p b!"/" = decide (b = []) := by
  have hm : sepB ∈ p := by
    cases p with
    | nil => simp [isAbs, hasPrefix] at h
    | cons c t =>
      have hc : c = sepB := by simpa using isAbs_iff.mp h
      simp [hc]
  have key : ∀ l : Str, sepB ∈ l → ∃ b a, l = b ++ sepB :: a ∧ sepB ∉ b := by
    intro l hl
    obtain ⟨b, a, h1, h2⟩ := List.append_of_mem hl |> fun ⟨s, t, e⟩ => List.eq_append_cons_of_mem hl
    exact ⟨b, a, h1, h2⟩
  obtain ⟨b, a, e, hb⟩ := key p.reverse (by simpa using hm)
  have hp : p = a.reverse ++ sepB :: b.reverse := by
    rw [← List.reverse_reverse p, e]
    simp
  refine ⟨a.reverse, b.reverse, hp, by simpa using hb, ?_, ?_⟩
  · unfold dir
    rw [e]
    have : (b ++ sepB :: a).dropWhile (· ≠ sepB) = sepB :: a := by
      rw [List.dropWhile_append_of_pos (fun x hx => by
        have : x ≠ sepB := fun hs => hb (hs ▸ hx)
        simpa using this)]
      simp
    rw [this]
    simp
  · rw [hp, Bool.eq_iff_iff, hasSuffix_iff]
    simp only [decide_eq_true_eq, List.reverse_eq_nil_iff]
    cases b with
    | nil => simp
    | cons c b =>
      simp only [reduceCtorEq, iff_false]
      intro hs
      obtain ⟨u, hu⟩ := hs
      have := congrArg (fun l => (List.reverse l).head?) hu
      simp only [List.reverse_append, List.reverse_cons, List.reverse_nil, List.nil_append, List.cons_append, List.head?_cons,
        List.reverse_reverse, List.append_assoc, Option.some.injEq] at this
      exact hb (by rw [← this]; exact List.mem_cons_self)

theorem walk_plain {d : List Str} {e : Str} (h : e ∉ [[], b!".", b!".."]) : walk d [e] = d ++ [e] := by
  simp only [List.mem_cons, List.not_mem_nil, or_false, not_or] at h
  unfold walk
  rw [if_neg (by tauto), if_neg h.2.2]
  rfl

theorem elements_clean {p : Str} (h : isAbs p = true) : elements (clean p) = elements p := by
  rw [← cleanElems_abs h, ← cleanElems_clean, cleanElems_abs (by rwa [isAbs_clean])]

theorem isAbs_root_append {a b : Str} (h : isAbs (a ++ sepB :: b) = true) : isAbs (a ++ [sepB]) = true := by
  cases a with
  | nil => rfl
  | cons c a => rw [isAbs_iff] at h ⊢; simpa using h

theorem elements_dir {p : Str} (h : isAbs p = true) (hn : NamesFile p) :
    isAbs (dir p) = true ∧ ∃ e, elements p = elements (dir p) ++ [e] ∧ hasSuffix p b!"/" = false := by
  obtain ⟨a, b, hp, hb, hd, hs⟩ := split_last h
  have hbn : b ∉ [[], b!".", b!".."] := by
    apply hn
    rw [hp, split_singleton_append_split, split_singleton_of_not_mem hb]
    simp
  refine ⟨isAbs_dir h, b, ?_, ?_⟩
  · rw [hd, elements_clean (isAbs_root_append (hp ▸ h)), hp, elements_append, elements_append,
      split_singleton_of_not_mem hb, walk_plain hbn]
    rfl
  · rw [hs]
    simp only [List.mem_cons, not_or] at hbn
    simpa using hbn.1

theorem statKind_abs {d : Disk} {cwd p : Str} (h : isAbs p = true) (hn : d (elements p) = some .folder ∨ NamesFile p) :
    statKind d cwd p = d (elements p) := by
  have hne : p ≠ [] := by rintro rfl; simp [isAbs, hasPrefix] at h
  unfold statKind
  rw [if_neg hne, place_abs h]
  rcases hn with hn | hn
  · rw [hn]
  · obtain ⟨_, e, _, hs⟩ := elements_dir h hn
    rw [hs]
    cases d (elements p) with
    | none => rfl
    | some k => cases k <;> rfl

theorem finishOutput_file (t cwd : Str) {p : Str} (h : isAbs p = true) : finishOutput t cwd p .file = p := by
  unfold finishOutput
  rw [if_neg (by simp)]
  exact toAbsolutePath_of (Or.inr h)

theorem elements_pathJoin {p name : Str} (h : isAbs p = true) (hn : name ∉ [[], b!".", b!".."]) (hs : sepB ∉ name) :
    isAbs (pathJoin [p, name]) = true ∧ elements (pathJoin [p, name]) = elements p ++ [name] := by
  have hne : p ≠ [] := by rintro rfl; simp [isAbs, hasPrefix] at h
  have e : pathJoin [p, name] = clean (p ++ sepB :: name) := by simp [pathJoin, hne, join]
  have h2 : isAbs (p ++ sepB :: name) = true := by rw [isAbs_append hne]; exact h
  refine ⟨isAbs_pathJoin h, ?_⟩
  rw [e, elements_clean h2, elements_append, split_singleton_of_not_mem hs, walk_plain hn]

theorem finishOutput_folder (t cwd : Str) {p name : Str} (h : isAbs p = true) (hd : defaultName t name) :
    isAbs (finishOutput t cwd p .folder) = true ∧ elements (finishOutput t cwd p .folder) = elements p ++ [name] := by
  have key : ∀ n : Str, n ∉ [[], b!".", b!".."] → sepB ∉ n → isAbs (toAbsolutePath cwd (pathJoin [p, n])) = true ∧
      elements (toAbsolutePath cwd (pathJoin [p, n])) = elements p ++ [n] := by
    intro n h1 h2
    obtain ⟨h3, h4⟩ := elements_pathJoin h h1 h2
    rw [toAbsolutePath_of (Or.inr h3)]
    exact ⟨h3, h4⟩
  unfold defaultName at hd
  simp only [List.mem_cons, List.not_mem_nil, or_false, Prod.mk.injEq] at hd
  rcases hd with ⟨rfl, rfl⟩ | ⟨rfl, rfl⟩ | ⟨rfl, rfl⟩ | ⟨rfl, rfl⟩
  · exact key b!"ebook.epub" (by decide) (by decide)
  · exact key b!"ebook.epub" (by decide) (by decide)
  · exact key b!"stats.json" (by decide) (by decide)
  · exact key b!"stats.txt" (by decide) (by decide)

theorem mkdirAll_free {d : Disk} {cwd p : Str} (h : isAbs p = true) (hf : ∀ q, q <+: elements p → d q ≠ some .file) :
    mkdirAll d cwd p = some fun q => if hasPrefix (elements p) q then some .folder else d q := by
  unfold mkdirAll
  rw [place_abs h, if_neg]
  simp only [List.any_eq_true, decide_eq_true_eq, not_exists, not_and]
  exact fun n _ => hf _ (List.take_prefix _ _)

theorem mkdirAll_blocked {d : Disk} {cwd p : Str} (h : isAbs p = true) {q : List Str} (hq : q <+: elements p) (hf : d q = some .file) :
    mkdirAll d cwd p = none := by
  unfold mkdirAll
  rw [place_abs h, if_pos]
  simp only [List.any_eq_true, decide_eq_true_eq]
  refine ⟨q.length, ?_, ?_⟩
  · have := hq.length_le
    simp
    omega
  · rw [← List.prefix_iff_eq_take.mp hq]
    exact hf

/-- A cleaned absolute path is the root or ends with a name. -/
theorem clean_names {p : Str} (h : isAbs p = true) : elements p = [] ∨ NamesFile (clean p) := by
  have hnf := NF_cleanElems p
  rw [cleanElems_abs h] at hnf
  by_cases he : elements p = []
  · exact Or.inl he
  right
  intro e hl
  have hs : split (clean p) b!"/" = [] :: elements p := by
    rw [clean_abs h]
    have := split_singleton_append_split sepB [] (join b!"/" (elements p))
    rw [split_nil] at this
    refine this.trans ?_
    rw [split_join_singleton he fun q hq => hnf.no_sep q (by simpa using hq)]
    rfl
  rw [hs, List.getLast?_cons_of_ne_nil he] at hl
  have hm := List.mem_of_getLast? hl
  have h1 := hnf.ne_nil e (by simpa using hm)
  have h2 : e ≠ b!".." := by
    rintro rfl
    exact (walk_eq (d := []) (es := split p b!"/") (by simp)).2 hm
  simp only [List.mem_cons, List.not_mem_nil, or_false, not_or]
  exact ⟨h1.1, h1.2, h2⟩

/-- A relative path of the user is the root or ends with a name, once it is absolute. -/
theorem resolve_names {cwd p : Str} (hc : isAbs cwd = true) (hp : p ≠ []) (ha : isAbs p = false) :
    elements (resolveAgainst cwd p) = [] ∨ NamesFile (resolveAgainst cwd p) := by
  have hne : cwd ≠ [] := by rintro rfl; simp [isAbs, hasPrefix] at hc
  have e : resolveAgainst cwd p = clean (cwd ++ sepB :: p) := by
    rw [← toAbsolutePath_eq hc]
    unfold toAbsolutePath abs
    rw [if_pos ⟨hp, by simp [ha]⟩, if_neg (by simp [ha])]
    simp [pathJoin, hne, join]
  have h2 : isAbs (cwd ++ sepB :: p) = true := by rw [isAbs_append hne]; exact hc
  rw [e, elements_clean h2]
  exact clean_names h2

end Verif.Lemmas
