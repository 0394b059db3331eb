import Verif.Model.ConfigFiles
import Verif.Model.CloseToken

/-!
# The start of the program

`initialize` in src/main.go and the command that follows it.
-/

namespace Verif.Model
open Verif.Go

/-- The levels of the log, src/main.go:174-180. -/
inductive LogLevel where
  | info | debug | trace
deriving DecidableEq, Repr

/-- What the program does, as far as it concerns the start. `command` is the function of the command (`project`, `article` or
`standalone`) with the configuration and the output file. -/
inductive StartEvent where
  | level (l : LogLevel)
  | readConfig (file : Str)
  | create (file : Str)
  | startProfile
  | stopProfile
  | startTrace
  | stopTrace
  | command (c : Config) (outputFile : Str)

/-- The options, src/main.go:72-80. `configFile` is the path and the content of the config file. -/
structure StartOptions where
  logging : Str
  configFile : Option (Str × Str)
  profiling : Bool
  trace : Bool
  outputFile : Str

/-- The surroundings: `strings.ToLower`, whether files can be created, and whether `pprof.StartCPUProfile` and `trace.Start` succeed. -/
structure StartEnv where
  machine : Machine
  cwd : Str
  lower : Str → Str
  creates : Str → Bool
  profiles : Bool
  traces : Bool

/-- Lines 174-185 of src/main.go; `none`: the level is unknown. -/
def logLevel (lower : Str → Str) (logging : Str) : Option LogLevel :=
  if lower logging = b!"debug" then some .debug
  else if lower logging = b!"trace" then some .trace
  else if lower logging = b!"info" then some .info
  else none

/-- Lines 194-201 (and likewise 203-210) of src/main.go: the events, the deferred functions, and whether the program goes on. -/
def diagnostics (wanted created started : Bool) (file : Str) (start stop : StartEvent) : List StartEvent × List StartEvent × Bool :=
  if wanted then
    if created then if started then ([.create file, start], [stop], true) else ([.create file], [], false)
    else ([], [], false)
  else ([], [], true)

/-- `initialize`, src/main.go:173-216: the configuration and the output file, and what has been done. `sigolo.Fatal` ends the program at
once, without the deferred functions; these are called in the opposite order when the function returns. (An error of `filepath.Abs`, which
occurs only if the working directory is unknown, is not modelled.) -/
def initializeProgram (env : StartEnv) (o : StartOptions) : Res (Config × Str) × List StartEvent :=
  match logLevel env.lower o.logging with
  | none => (.fatal, [])
  | some l =>
    let events := .level l :: (match o.configFile with | some (file, _) => [.readConfig file] | none => [])
    match afterConfigBytes env.machine env.cwd o.configFile with
    | .err => (.err, events)
    | .panic => (.panic, events)
    | .fatal => (.fatal, events)
    | .ok c =>
      let p := diagnostics o.profiling (env.creates b!"profiling.prof") env.profiles b!"profiling.prof" .startProfile .stopProfile
      if p.2.2 then
        let t := diagnostics o.trace (env.creates b!"trace.out") env.traces b!"trace.out" .startTrace .stopTrace
        if t.2.2 then (.ok (c, toAbsolutePath env.cwd o.outputFile), events ++ p.1 ++ t.1 ++ t.2.1 ++ p.2.1)
        else (.fatal, events ++ p.1 ++ t.1)
      else (.fatal, events ++ p.1)

/-- `PersistentPreRun` and `Run` of a command, src/main.go:61-64 and 122-152. -/
def startProgram (env : StartEnv) (o : StartOptions) : Res Unit × List StartEvent :=
  match initializeProgram env o with
  | (.ok (c, out), events) => (.ok (), events ++ [.command c out])
  | (.err, events) => (.err, events)
  | (.panic, events) => (.panic, events)
  | (.fatal, events) => (.fatal, events)

end Verif.Model
