import Verif.Model.StatsOutput
import Verif.Props.Guards
import Verif.Props.StatsJson
import Verif.Props.Output

/-!
# C93: the statistics are in the output file when the program reports success
-/

namespace Verif.Props
open Verif.Go Verif.Model Verif.Spec Verif.Lemmas FSl FsM

theorem copyTo_result (path : Str) (now : Int) : ∀ (bs pre : Str) (ff : Nat → Bool) (n : Nat) (fs : FS), fs.get path = some ⟨pre, now⟩ →
    (∀ q, q ≠ path → ((copyTo path now bs true ff n fs).fs).get q = fs.get q) ∧
    ((copyTo path now bs true ff n fs).res = .ok () ∧ ((copyTo path now bs true ff n fs).fs).get path = some ⟨pre ++ bs, now⟩ ∨
      (copyTo path now bs true ff n fs).res = .err ∧ ∃ k, ff k = true)
  | [], pre, ff, n, fs, h => ⟨fun _ _ => rfl, .inl ⟨rfl, by rw [List.append_nil]; exact h⟩⟩
  | b :: bs, pre, ff, n, fs, h => by
    have e : copyTo path now (b :: bs) true ff n fs = FsM.bind (appendByte path b now) (fun _ => copyTo path now bs true) ff n fs := rfl
    rw [e]
    unfold FsM.bind appendByte FsM.prim
    by_cases hf : ff n = true
    · simp only [hf, if_true]
      exact ⟨fun _ _ => trivial, .inr ⟨trivial, n, hf⟩⟩
    · simp only [hf, if_false, Bool.false_eq_true, h]
      have ih := copyTo_result path now bs (pre ++ [b]) ff (n + 1) (fs.put path ⟨pre ++ [b], now⟩) (get_put_self _ _ _)
      rw [List.append_assoc, List.singleton_append] at ih
      refine ⟨fun q hq => ?_, ih.2⟩
      rw [ih.1 q hq, get_put_ne hq]

theorem writeStats_result {path : Str} (hp : isSanitized path = true) (content : Str) (now : Int) (ff : Nat → Bool) (n : Nat) (fs : FS) :
    (∀ q, q ≠ path → ((writeStats path content now ff n fs).fs).get q = fs.get q) ∧
    ((writeStats path content now ff n fs).res = .ok () ∧ ((writeStats path content now ff n fs).fs).get path = some ⟨content, now⟩ ∨
      (writeStats path content now ff n fs).res = .err ∧ ∃ k, ff k = true) := by
  have e : writeStats path content now ff n fs =
      FsM.bind (FsM.prim fun fs => (.ok (), fs.put path ⟨[], now⟩)) (fun _ => copyTo path now content true) ff n fs := by
    show FsM.bind (FsM.bind (requireSanitized path) _) _ ff n fs = _
    unfold requireSanitized
    rw [if_pos hp]
    rfl
  rw [e]
  unfold FsM.bind FsM.prim
  by_cases hf : ff n = true
  · simp only [hf, if_true]
    exact ⟨fun _ _ => trivial, .inr ⟨trivial, n, hf⟩⟩
  · simp only [hf, if_false, Bool.false_eq_true]
    have h := copyTo_result path now content [] ff (n + 1) (fs.put path ⟨[], now⟩) (get_put_self _ _ _)
    rw [List.nil_append] at h
    refine ⟨fun q hq => ?_, h.2⟩
    rw [h.1 q hq, get_put_ne hq]

theorem generate_of_ok {env : StatsEnv} {text : StatsTextEnv} {t : Str} {files : List Str} {content : Str}
    (h : statsContent env text t files = .ok content) (path : Str) (now : Int) :
    generateCombinedStats env text t files path now = writeStats path content now := by
  unfold generateCombinedStats
  rw [h]

/-- The report on the articles in `files` for an output type. -/
def IsReport (env : StatsEnv) (text : StatsTextEnv) (outputType : Str) (files : List Str) (report : Str) : Prop :=
  (outputType = b!"stats-json" ∧ ∃ c, combinedStats env outputType files = .ok c ∧ report = bookStatsFile c) ∨
  (outputType = b!"stats-txt" ∧ combinedText env text files = .ok report)

theorem isReport_iff {env : StatsEnv} {text : StatsTextEnv} {t : Str} {files : List Str} {report : Str} :
    IsReport env text t files report ↔ statsContent env text t files = .ok report := by
  unfold IsReport statsContent
  by_cases h1 : t = b!"stats-json"
  · have h2 : ¬ t = b!"stats-txt" := by rw [h1]; decide
    simp only [h1, if_true, true_and]
    have h3 : ¬ b!"stats-json" = b!"stats-txt" := by decide
    simp only [h3, false_and, or_false]
    cases h4 : combinedStats env b!"stats-json" files with
    | ok c =>
      simp only [Res.bind, Res.ok.injEq]
      constructor
      · rintro ⟨c', rfl, h⟩; exact h.symm
      · intro h; exact ⟨c, rfl, h.symm⟩
    | err => simp [Res.bind]
    | panic => simp [Res.bind]
    | fatal => simp [Res.bind]
  · simp only [h1, if_false, false_and, false_or]
    by_cases h2 : t = b!"stats-txt"
    · simp [h2]
    · simp [h2]

/-- **C93**, without the paths that the check rejects: whichever operations on files fail, no other file is changed, and if the program
reports success, the output file contains the whole report and nothing of what was in it before. -/
theorem C93_success_means_complete_partial (env : StatsEnv) (text : StatsTextEnv) (outputType : Str) (files : List Str) (path : Str)
    (hp : isSanitized path = true) (now : Int) (faults : Nat → Bool) (n : Nat) (fs : FS) :
    (∀ q, q ≠ path → ((generateCombinedStats env text outputType files path now faults n fs).fs).get q = fs.get q) ∧
    ((generateCombinedStats env text outputType files path now faults n fs).res = .ok () →
      ∃ report, IsReport env text outputType files report ∧
        ((generateCombinedStats env text outputType files path now faults n fs).fs).get path = some ⟨report, now⟩) := by
  cases h : statsContent env text outputType files with
  | ok content =>
    rw [generate_of_ok h]
    have h1 := writeStats_result hp content now faults n fs
    refine ⟨h1.1, fun h2 => ⟨content, isReport_iff.mpr h, ?_⟩⟩
    rcases h1.2 with h3 | h3
    · exact h3.2
    · rw [h3.1] at h2
      cases h2
  | err => unfold generateCombinedStats; rw [h]; exact ⟨fun _ _ => rfl, fun h2 => by cases h2⟩
  | panic => unfold generateCombinedStats; rw [h]; exact ⟨fun _ _ => rfl, fun h2 => by cases h2⟩
  | fatal => unfold generateCombinedStats; rw [h]; exact ⟨fun _ _ => rfl, fun h2 => by cases h2⟩

/-- If there is a report and no operation fails, the program reports success. -/
theorem C93_reports_are_written_partial (env : StatsEnv) (text : StatsTextEnv) (outputType : Str) (files : List Str) (report : Str)
    (hr : IsReport env text outputType files report) (path : Str) (hp : isSanitized path = true) (now : Int) (n : Nat) (fs : FS) :
    (generateCombinedStats env text outputType files path now (fun _ => false) n fs).res = .ok () ∧
    ((generateCombinedStats env text outputType files path now (fun _ => false) n fs).fs).get path = some ⟨report, now⟩ := by
  rw [generate_of_ok (isReport_iff.mp hr)]
  rcases (writeStats_result hp report now (fun _ => false) n fs).2 with h | ⟨_, k, h⟩
  · exact h
  · cases h

/-- If there is no report, as for articles whose files cannot be read, the output file keeps what was in it. -/
theorem C93_without_report_nothing_is_written (env : StatsEnv) (text : StatsTextEnv) (outputType : Str) (files : List Str)
    (hr : ∀ report, ¬ IsReport env text outputType files report) (path : Str) (now : Int) (faults : Nat → Bool) (n : Nat) (fs : FS) :
    (generateCombinedStats env text outputType files path now faults n fs).res ≠ .ok () ∧
    (generateCombinedStats env text outputType files path now faults n fs).fs = fs := by
  cases h : statsContent env text outputType files with
  | ok content => exact absurd (isReport_iff.mpr h) (hr content)
  | err => unfold generateCombinedStats; rw [h]; exact ⟨nofun, rfl⟩
  | panic => unfold generateCombinedStats; rw [h]; exact ⟨nofun, rfl⟩
  | fatal => unfold generateCombinedStats; rw [h]; exact ⟨nofun, rfl⟩

/-- **C93** fails for output paths with one of the characters that are not allowed on Windows: when all articles have been processed, the
program ends without writing the report, … -/
theorem C93_paths_with_colons_get_no_report (env : StatsEnv) (text : StatsTextEnv) (outputType : Str) (files : List Str) (report : Str)
    (hr : IsReport env text outputType files report) (path : Str) {c : Byte} (hc : c ∈ path) (hf : c ∈ forbidden) (hs : c ≠ 0x2F)
    (now : Int) (faults : Nat → Bool) (n : Nat) (fs : FS) :
    (generateCombinedStats env text outputType files path now faults n fs).res = .fatal ∧
    (generateCombinedStats env text outputType files path now faults n fs).fs = fs := by
  rw [generate_of_ok (isReport_iff.mp hr)]
  have h : isSanitized path = false := rejected_of_mem hc hf hs
  have e : writeStats path report now faults n fs = FsM.bind (FsM.bind (requireSanitized path) fun _ =>
      FsM.prim fun fs => (.ok (), fs.put path ⟨[], now⟩)) (fun _ => copyTo path now report true) faults n fs := rfl
  rw [e]
  unfold requireSanitized
  rw [h]
  exact ⟨rfl, rfl⟩

/-- … although the preparation accepts these paths and creates the file. -/
theorem C93_preparation_accepts_colons :
    (ensureOutput b!"stats-json" b!"/w" b!"/w/a:b.json" aDisk).1 = .ok b!"/w/a:b.json" ∧
    (ensureOutput b!"stats-json" b!"/w" b!"/w/a:b.json" aDisk).2 [b!"w", b!"a:b.json"] = some .file ∧
    aDisk [b!"w", b!"a:b.json"] = none := by decide +kernel

/-- The output file is not replaced at once: if writing fails after the file has been opened, the earlier report is lost and the file is
empty. -/
theorem C93_failures_lose_the_earlier_report (env : StatsEnv) (text : StatsTextEnv) (outputType : Str) (files : List Str) (report : Str)
    (hr : IsReport env text outputType files report) (hne : report ≠ []) (path : Str) (hp : isSanitized path = true)
    (now : Int) (faults : Nat → Bool) (n : Nat) (h0 : faults n = false) (h1 : faults (n + 1) = true) (fs : FS) :
    (generateCombinedStats env text outputType files path now faults n fs).res = .err ∧
    ((generateCombinedStats env text outputType files path now faults n fs).fs).get path = some ⟨[], now⟩ := by
  rw [generate_of_ok (isReport_iff.mp hr)]
  obtain ⟨b, bs, rfl⟩ := List.exists_cons_of_ne_nil hne
  have e : writeStats path (b :: bs) now faults n fs = FsM.bind (FsM.bind (requireSanitized path) fun _ =>
      FsM.prim fun fs => (.ok (), fs.put path ⟨[], now⟩)) (fun _ =>
        FsM.bind (appendByte path b now) fun _ => copyTo path now bs true) faults n fs := rfl
  rw [e]
  unfold requireSanitized
  rw [if_pos hp]
  simp only [FsM.bind, FsM.prim, appendByte, Pure.pure, FsM.pure, h0, h1, if_true, if_false, Bool.false_eq_true]
  exact ⟨trivial, get_put_self _ _ _⟩

/-! ### Examples -/

/-- A report on two articles exists, the path is accepted, and an earlier report is in the output file. -/
example : (∃ report, IsReport forwardEnv ⟨id, id, id⟩ b!"stats-json" [b!"A.json", b!"B.json"] report ∧ report ≠ []) ∧ isSanitized b!"/w/stats.json" = true ∧
    (FS.get [(b!"/w/stats.json", ⟨b!"old", 1⟩)] b!"/w/stats.json" = some ⟨b!"old", 1⟩) :=
  ⟨⟨_, .inl ⟨rfl, _, rfl, rfl⟩, by unfold bookStatsFile; simp⟩, by decide +kernel, by decide +kernel⟩

/-- There is no report if a file is missing; a path with a colon is one of those that get no report. -/
example : (∀ report, ¬ IsReport forwardEnv ⟨id, id, id⟩ b!"stats-json" [b!"A.json", b!"Z.json"] report) ∧
    (∃ c : Byte, c ∈ b!"/w/a:b.json" ∧ c ∈ forbidden ∧ c ≠ 0x2F) := by
  refine ⟨?_, 0x3A, by decide, by decide, by decide⟩
  rintro report (⟨_, c, h, _⟩ | ⟨h, _⟩)
  · rw [C43_unreadable_article_is_an_error forwardEnv b!"stats-json" _ ⟨b!"Z.json", by simp, by decide +kernel⟩] at h
    cases h
  · exact absurd h (by decide)

/-- Creating the file succeeds and the first write fails. -/
example : (fun k => k == 1) 0 = false ∧ (fun k => k == 1) (0 + 1) = true := ⟨rfl, rfl⟩

end Verif.Props
