import Verif.Spec.Initialize

/-! # C87, C88: diagnostics and the level of the log -/

namespace Verif.Props
open Verif.Go Verif.Model Verif.Spec

theorem initializeProgram_ok {env : StartEnv} {o : StartOptions} {c : Config} {out : Str} {events : List StartEvent}
    (h : initializeProgram env o = (.ok (c, out), events)) :
    ∃ l, logLevel env.lower o.logging = some l ∧ afterConfigBytes env.machine env.cwd o.configFile = .ok c ∧
      out = toAbsolutePath env.cwd o.outputFile ∧
      events = .level l :: (match o.configFile with | some (file, _) => [.readConfig file] | none => []) ++
        (if o.profiling then [.create b!"profiling.prof", .startProfile] else []) ++
        (if o.trace then [.create b!"trace.out", .startTrace] else []) ++
        (if o.trace then [.stopTrace] else []) ++ (if o.profiling then [.stopProfile] else []) := by
  unfold initializeProgram at h
  split at h
  · cases h
  · next l hl =>
    refine ⟨l, hl, ?_⟩
    simp only at h
    split at h
    · cases h
    · cases h
    · cases h
    · next c' hc =>
      unfold diagnostics at h
      revert h
      cases o.profiling <;> cases o.trace <;> cases env.creates b!"profiling.prof" <;> cases env.profiles <;>
        cases env.creates b!"trace.out" <;> cases env.traces <;> simp [hc] <;> grind

theorem startProgram_ok {env : StartEnv} {o : StartOptions} {events : List StartEvent} (h : startProgram env o = (.ok (), events)) :
    ∃ c out before, initializeProgram env o = (.ok (c, out), before) ∧ events = before ++ [.command c out] := by
  unfold startProgram at h
  split at h
  · next c out before hi =>
    injection h with h1 h2
    exact ⟨c, out, before, hi, h2.symm⟩
  all_goals cases h

/-- **C87** is false of the code, for all options and surroundings: the recording ends before the command begins. -/
theorem C87_recordings_end_before_the_command (env : StartEnv) (o : StartOptions) (events : List StartEvent)
    (h : startProgram env o = (.ok (), events)) :
    ¬ Covers .startProfile .stopProfile events ∧ ¬ Covers .startTrace .stopTrace events := by
  obtain ⟨c, out, before, hi, rfl⟩ := startProgram_ok h
  obtain ⟨l, -, -, -, rfl⟩ := initializeProgram_ok hi
  have key : ∀ (start stop : StartEvent) (pre post : List StartEvent), (∀ c out, StartEvent.command c out ∉ pre ++ stop :: post) → start ≠ stop →
      start ∉ post → ¬ Covers start stop (pre ++ stop :: post ++ [.command c out]) := by
    rintro start stop pre post hc hne hp ⟨a, b, c', out', e, x, y, rfl, hy⟩
    have hb : b = [] ∧ pre ++ stop :: post = x ++ start :: y := by
      rcases List.eq_nil_or_concat b with rfl | ⟨b', z, rfl⟩
      · have := List.append_inj' e rfl
        exact ⟨rfl, this.1⟩
      · exfalso
        have e2 : pre ++ stop :: post ++ [.command c out] = (x ++ start :: y ++ .command c' out' :: b') ++ [z] := by
          rw [e]; simp
        have := (List.append_inj' e2 rfl).1
        exact hc c' out' (by rw [this]; simp)
    have e := hb.2
    rcases List.append_eq_append_iff.mp e with ⟨r, rfl, h2⟩ | ⟨r, rfl, h2⟩
    · cases r with
      | nil => simp at h2; exact hne h2.1.symm
      | cons d r =>
        simp only [List.cons_append, List.cons.injEq] at h2
        exact hp (by rw [h2.2]; simp)
    · cases r with
      | nil => simp at h2; exact hne h2.1
      | cons d r =>
        simp only [List.cons_append, List.cons.injEq] at h2
        exact hy (by rw [h2.2]; simp)
  have never : ∀ (start stop : StartEvent) (ev : List StartEvent), start ∉ ev → ¬ Covers start stop ev := by
    rintro start stop ev hs ⟨a, b, c', out', rfl, x, y, rfl, -⟩
    exact hs (by simp)
  generalize hcf : (match o.configFile with | some (file, _) => [StartEvent.readConfig file] | none => []) = cf
  have hcf : ∀ e ∈ cf, ∃ file, e = .readConfig file := by
    subst hcf
    split <;> simp
  have h1 : ∀ e, (∀ file, e ≠ StartEvent.readConfig file) → e ∉ cf := fun e he hm => by
    obtain ⟨file, rfl⟩ := hcf e hm
    exact he file rfl
  constructor
  · cases o.profiling with
    | false => exact never _ _ _ (by have := h1 .startProfile (by simp); cases o.trace <;> simp [this])
    | true =>
      have := key .startProfile .stopProfile (.level l :: cf ++ [.create b!"profiling.prof", .startProfile] ++
        (if o.trace then [.create b!"trace.out", .startTrace] else []) ++ (if o.trace then [.stopTrace] else [])) []
        (fun c out => by have := h1 (.command c out) (by simp); cases o.trace <;> simp [this]) (by simp) (by simp)
      simpa using this
  · cases o.trace with
    | false => exact never _ _ _ (by have := h1 .startTrace (by simp); cases o.profiling <;> simp [this])
    | true =>
      have := key .startTrace .stopTrace (.level l :: cf ++ (if o.profiling then [.create b!"profiling.prof", .startProfile] else []) ++
        [.create b!"trace.out", .startTrace]) (if o.profiling then [.stopProfile] else [])
        (fun c out => by have := h1 (.command c out) (by simp); cases o.profiling <;> simp [this]) (by simp)
        (by cases o.profiling <;> simp)
      simpa using this

/-- The part of **C87** that holds: exactly the requested files are created, and each recording that is requested is started (before the
command, with the configuration of the config file). What is missing is that the recording goes on, see
`C87_recordings_end_before_the_command`. -/
theorem C87_requested_recordings_are_started_partial (env : StartEnv) (o : StartOptions) (events : List StartEvent)
    (h : startProgram env o = (.ok (), events)) :
    ∃ before c, events = before ++ [.command c (toAbsolutePath env.cwd o.outputFile)] ∧
      afterConfigBytes env.machine env.cwd o.configFile = .ok c ∧
      (∀ file, .create file ∈ before ↔ (o.profiling = true ∧ file = b!"profiling.prof") ∨ (o.trace = true ∧ file = b!"trace.out")) ∧
      (.startProfile ∈ before ↔ o.profiling = true) ∧ (.startTrace ∈ before ↔ o.trace = true) ∧
      ∀ c out, .command c out ∉ before := by
  obtain ⟨c, out, before, hi, rfl⟩ := startProgram_ok h
  obtain ⟨l, -, hc, rfl, rfl⟩ := initializeProgram_ok hi
  refine ⟨_, c, rfl, hc, ?_⟩
  cases o.configFile <;> cases o.profiling <;> cases o.trace <;> simp

/-- Both files are created, and nothing is recorded but the end of the start. -/
example (env : StartEnv) (hl : env.lower = lowered) (hc : ∀ file, env.creates file = true) (hp : env.profiles = true) (ht : env.traces = true) :
    startProgram env ⟨b!"Debug", none, true, true, b!"/b.epub"⟩ =
      (.ok (), [.level .debug, .create b!"profiling.prof", .startProfile, .create b!"trace.out", .startTrace, .stopTrace, .stopProfile,
        .command (defaultConfig env.machine) b!"/b.epub"]) := by
  simp only [startProgram, initializeProgram, hl, hc, hp, ht]
  rfl

/-- **C88**: a level from the help is used, in any mixture of small and capital letters, before anything else is done. -/
theorem C88_documented_levels_are_used (env : StartEnv) (hl : LowersAscii env.lower) (o : StartOptions) (l : LogLevel)
    (h : lowered o.logging = levelName l) : ∃ rest, (startProgram env o).2 = .level l :: rest ∧ ∀ l', .level l' ∉ rest := by
  have ha : ∀ c ∈ o.logging, c < 128 := by
    have hb : ∀ c ∈ lowered o.logging, c < 128 := by
      rw [h]
      cases l <;> decide
    intro c hc
    have := hb (lowerByte c) (List.mem_map_of_mem hc)
    unfold lowerByte at this
    split at this
    · next hr =>
      simp only [Bool.and_eq_true, decide_eq_true_eq] at hr
      exact UInt8.lt_of_le_of_lt hr.2 (by decide)
    · exact this
  have hlev : logLevel env.lower o.logging = some l := by
    unfold logLevel
    rw [hl _ ha, h]
    cases l <;> decide
  have hi : ∃ rest, (initializeProgram env o).2 = .level l :: rest ∧ ∀ l', .level l' ∉ rest := by
    unfold initializeProgram diagnostics
    rw [hlev]
    generalize afterConfigBytes env.machine env.cwd o.configFile = r
    cases r with
    | ok c =>
      cases o.configFile <;> cases o.profiling <;> cases o.trace <;> cases env.creates b!"profiling.prof" <;> cases env.profiles <;>
        cases env.creates b!"trace.out" <;> cases env.traces <;> exact ⟨_, rfl, by simp⟩
    | _ => cases o.configFile <;> exact ⟨_, rfl, by simp⟩
  obtain ⟨rest, hr, hn⟩ := hi
  unfold startProgram
  split
  all_goals
    next he => 
    rw [he] at hr
    obtain rfl : _ = _ := hr
    first
    | exact ⟨rest, rfl, hn⟩
    | exact ⟨rest ++ [.command _ _], rfl, by simpa using hn⟩

/-- **C88**: with any other text the program ends with an error, and nothing is done: no file is read or created, and no command is
carried out. -/
theorem C88_unknown_levels_are_reported (env : StartEnv) (o : StartOptions) (h : ∀ l, env.lower o.logging ≠ levelName l) :
    startProgram env o = (.fatal, []) := by
  have : logLevel env.lower o.logging = none := by
    unfold logLevel
    have h1 : env.lower o.logging ≠ b!"debug" := h .debug
    have h2 : env.lower o.logging ≠ b!"trace" := h .trace
    have h3 : env.lower o.logging ≠ b!"info" := h .info
    rw [if_neg h1, if_neg h2, if_neg h3]
  simp only [startProgram, initializeProgram, this]

example : lowered b!"TRACE" = levelName .trace ∧ ∀ l, lowered b!"warn" ≠ levelName l := by
  refine ⟨by decide, fun l => ?_⟩
  cases l <;> decide

end Verif.Props
