import Verif.Model.Config
import Verif.Model.Dimacs
import Verif.Model.CheckerApi
import Verif.Model.Lrat
import Verif.Model.Solver.Cdcl
/-!
# Model: the command line tool (`varisat-cli/src/main.rs`, `check.rs`, `check/transcript.rs`)

What is printed to the standard output and the exit status. Parsing of the arguments (`clap`), of
configuration files (`toml`) and the file system are parameters: the model starts from their results. The
texts of log messages are parameters, too; a message may also be suppressed (`VARISAT_LOG`). Not modelled: a
standard output that cannot be written to (`println!` panics).
-/
namespace Varisat.Cli

variable {α : Type} [LinearOrder α]

/-- The log messages: `none` is a suppressed one. -/
structure Log where
  /-- `banner`, `main.rs:51-58` -/
  banner1 : Option Bytes := none
  banner2 : Option Bytes := none
  /-- `Reading file …`, `main.rs:132, 137`; `check.rs:35, 40` -/
  reading : Option Bytes := none
  /-- `Writing … proof to file …`, `main.rs:162`; `Checking proof file …`, `check.rs:70` -/
  proof : Option Bytes := none
  /-- `Parsed formula with …`, `solver.rs:90-94`, and messages of the search -/
  solving : List (Option Bytes) := []
  /-- the error reported last -/
  error : Option Bytes := none
  /-- `failed step was …`, `check.rs:77` -/
  failedStep : Option Bytes := none

/-- The format of a log line, `main.rs:30-36`. -/
def logLine : Option Bytes → Bytes
  | none => []
  | some m => ascii "c " ++ m ++ [10]

/-- `--proof`: the format, and whether the file can be created. -/
structure ProofArg where
  /-- `lrat` or `clrat` -/
  lrat : Bool
  creates : Bool

/-- A file: its contents as delivered by the reader, and whether reading fails afterwards. -/
structure Source where
  chunks : List Bytes
  fails : Bool := false

/-- The results of argument parsing and of the file system. -/
structure Args where
  /-- `-C help` is among the options, `main.rs:100-107` -/
  optionHelp : Bool := false
  /-- the configuration file, then the `-C` options; `none` if it cannot be read or parsed -/
  configs : List (Option Config.Update) := []
  /-- the input; `none` if it cannot be opened -/
  input : Option Source
  proof : Option ProofArg := none
  /-- `solve` returns an error: writing or checking the proof failed (see `Model/ProofOut.lean`) -/
  fault : Bool := false

/-- `SolverConfig::help()`, `lib.rs:158-170` for `config.rs:6-31`. -/
def help : Bytes := [
    "vsids_decay:",
    "    Multiplicative decay for the VSIDS decision heuristic.",
    "",
    "    [default: 0.95]  [range: 0.5..1.0]",
    "",
    "clause_activity_decay:",
    "    Multiplicative decay for clause activities.",
    "",
    "    [default: 0.999]  [range: 0.5..1.0]",
    "",
    "reduce_locals_interval:",
    "    Number of conflicts between local clause reductions.",
    "",
    "    [default: 15000]  [range: 1..]",
    "",
    "reduce_mids_interval:",
    "    Number of conflicts between mid clause reductions.",
    "",
    "    [default: 10000]  [range: 1..]",
    "",
    "luby_restart_interval_scale:",
    "    Scaling factor for luby sequence based restarts (number of conflicts).",
    "",
    "    [default: 128]  [range: 1..]",
    ""].flatMap fun l => ascii l ++ [10]

/-- Merging the configuration file and options, `main.rs:112-123`; `none` is an error. -/
def mergeConfigs : Config.Update → List (Option Config.Update) → Option Config.Update
  | u, [] => some u
  | _, none :: _ => none
  | u, some v :: vs => mergeConfigs (u.merge v) vs

/-- `add_formula`, `solver.rs:72-77`, for a list of formulas. -/
def addFormulas (e : Solver.Env α) : Solver.St α → List CnfFormula → Except Solver.Stop (Solver.St α)
  | s, [] => .ok s
  | s, f :: fs =>
    match f.iter with
    | none => .error .panic
    | some cs =>
      match cs.foldlM (fun s c => s.loadClause e c) s with
      | .error x => .error x
      | .ok s => addFormulas e s fs

/-- The end of `main_with_err`, `main.rs:178-197`: the output and the exit status; `none` if the program panics
or does not end. -/
def answer (e : Solver.Env α) (fuel : Nat) (log : Log) (fault : Bool) (s : Solver.St α) : Option (Bytes × Nat) :=
  if fault then some (logLine log.error ++ ascii "s UNKNOWN" ++ [10], 0)
  else
    match s.solve e fuel with
    | .error _ => none
    | .ok (_, false) => some (ascii "s UNSATISFIABLE" ++ [10], 20)
    | .ok (s, true) =>
      match s.modelLits with
      | some (some m) =>
        some (ascii "s SATISFIABLE" ++ [10] ++ ascii "v" ++ m.flatMap (fun l => ascii " " ++ decInt l.toDimacs) ++
          ascii " 0" ++ [10], 10)
      | _ => none

/-- `main_with_err` and `main` from the opened input on, `main.rs:143-197`; `out` is what has been printed
before. If reading fails after some chunks, the clauses of these chunks are not added in the model. -/
def solveInput (e : Solver.Env α) (fuel : Nat) (log : Log) (args : Args) (input : Source) (out : Bytes) :
    Option (Bytes × Nat) :=
  let failed := some (out ++ logLine log.error, 1)
  let go (out : Bytes) : Option (Bytes × Nat) :=
    if input.fails then some (out ++ logLine log.error, 1)
    else
      match DimacsParser.parseIncremental .new (input.chunks.map (·, true)) true with
      | (_, fs, err) =>
        match addFormulas e (Solver.St.new e) fs with
        | .error _ => none
        | .ok s =>
          match err with
          | some _ => some (out ++ logLine log.error, 1)
          | none =>
            match answer e fuel log args.fault s with
            | none => none
            | some (a, code) => some (out ++ log.solving.flatMap logLine ++ a, code)
  match args.proof with
  | none => go out
  | some p =>
    if p.lrat then
      if p.creates then go (out ++ logLine log.proof) else failed
    else if p.creates then go (out ++ logLine log.proof)
    else some (out ++ logLine log.proof ++ logLine log.error, 1)

/-- `main` and `main_with_err`, `main.rs:18-27, 60-197`, without `--check`. The solver's parameters depend on
the configuration. -/
def run (recip : Config.F32 → Config.F32) (env : Config.SolverConfig → Solver.Env α) (fuel : Nat) (log : Log) (args : Args) :
    Option (Bytes × Nat) :=
  if args.optionHelp then some (help, 0)
  else
    let out := logLine log.banner1 ++ logLine log.banner2
    match mergeConfigs {} args.configs with
    | none => some (out ++ logLine log.error, 1)
    | some u =>
      match (Config.St.new recip).configure recip u with
      | none => none
      | some (_, .error _) => some (out ++ logLine log.error, 1)
      | some (c, .ok ()) =>
        match args.input with
        | none => some (out ++ logLine log.reading ++ logLine log.error, 1)
        | some input => solveInput (env c.config) fuel log args input (out ++ logLine log.reading)

/-! ### `--check` -/

/-- `SummaryStep`, `check/transcript.rs:6-13`. -/
inductive Summary
  | witnessVar | sampleVar | hideVar | observeInternalVar | addClause
deriving DecidableEq, Repr

/-- `Transcript`, `transcript.rs:18-22`. -/
structure Transcript where
  last : Option Summary := none
  counter : Nat := 0

/-- The line printed for repeated steps, `transcript.rs:30-46`. -/
def summaryLine (n : Nat) : Summary → Bytes
  | .witnessVar => ascii "t WITNESS " ++ decNat n ++ ascii " VARIABLES " ++ [10]
  | .sampleVar => ascii "t SAMPLE " ++ decNat n ++ ascii " VARIABLES " ++ [10]
  | .hideVar => ascii "t HIDE " ++ decNat n ++ ascii " VARIABLES " ++ [10]
  | .observeInternalVar => ascii "t OBSERVE " ++ decNat n ++ ascii " INTERNAL VARIABLES " ++ [10]
  | .addClause => ascii "t ADD " ++ decNat n ++ ascii " CLAUSES " ++ [10]

/-- `print_summary`, `transcript.rs:24-52`. -/
def printSummary (t : Transcript) (step : Option Summary) : Transcript × Bytes :=
  if t.last = step then ({ t with counter := t.counter + 1 }, [])
  else
    ({ last := step, counter := 1 }, match t.last with
      | none => []
      | some x => summaryLine t.counter x)

/-- `process_step`, `transcript.rs:55-92`. -/
def printStep (t : Transcript) : Checker.TranscriptStep → Transcript × Bytes
  | .witnessVar _ => printSummary t (some .witnessVar)
  | .sampleVar _ => printSummary t (some .sampleVar)
  | .hideVar _ => printSummary t (some .hideVar)
  | .observeInternalVar _ => printSummary t (some .observeInternalVar)
  | .addClause _ => printSummary t (some .addClause)
  | .unsat => let r := printSummary t none; (r.1, r.2 ++ ascii "t UNSAT" ++ [10])
  | .model _ => let r := printSummary t none; (r.1, r.2 ++ ascii "t SAT" ++ [10])
  | .assume ls => let r := printSummary t none; (r.1, r.2 ++ ascii "t ASSUME " ++ decNat ls.length ++ ascii " LITERALS" ++ [10])
  | .failedAssumptions c =>
    let r := printSummary t none; (r.1, r.2 ++ ascii "t UNSAT WITH " ++ decNat c.length ++ ascii " ASSUMPTIONS" ++ [10])

/-- Everything printed for a list of steps. -/
def printSteps : Transcript → List Checker.TranscriptStep → Bytes
  | _, [] => []
  | t, x :: xs => let r := printStep t x; r.2 ++ printSteps r.1 xs

/-- The arguments of `--check`, `check.rs:13-22`. -/
structure CheckArgs where
  /-- the formula; `none` if it cannot be opened -/
  input : Option Source
  /-- the files for LRAT output can be created -/
  creates : Bool := true
  /-- the contents of the proof file; `none` if it cannot be opened -/
  proof : Option Bytes
  /-- buffering of the proof file -/
  fill : Nat → Nat := fun _ => 1

/-- `Checker::add_dimacs_cnf`, `varisat-checker/src/lib.rs:98-119`: all clauses of the chunks parsed. -/
def addAll (env : Checker.Env) : List CnfFormula → Checker.CM Unit
  | [] => pure ()
  | f :: fs => fun s =>
    match f.iter with
    | none => .error .panic s
    | some cs =>
      match Checker.execs env (cs.map .add) s with
      | .error x s => .error x s
      | .ok () s => addAll env fs s

/-- `check_main`, `check.rs:24-88`, with `main`, `main.rs:18-27`. The processors never fail except for those
writing LRAT (`env.proc`). Log lines and transcript lines are printed in a different order if the parser or the
checker logs something in between. -/
def runCheck (env : Checker.Env) (log : Log) (args : CheckArgs) : Option (Bytes × Nat) :=
  let out := logLine log.banner1 ++ logLine log.banner2 ++ logLine log.reading
  match args.input with
  | none => some (out ++ logLine log.error, 1)
  | some input =>
    if !args.creates then some (out ++ logLine log.error, 1)
    else if input.fails then some (out ++ logLine log.error, 1)
    else
      match DimacsParser.parseIncremental .new (input.chunks.map (·, true)) true with
      | (_, fs, err) =>
        match addAll env fs {} with
        | .error .panic _ => none
        | .error _ s => some (out ++ printSteps {} s.tout ++ logLine log.error, 1)
        | .ok () s =>
          match err with
          | some _ => some (out ++ printSteps {} s.tout ++ logLine log.error, 1)
          | none =>
            let out := out ++ log.solving.flatMap logLine
            match args.proof with
            | none => some (out ++ printSteps {} s.tout ++ logLine log.proof ++ logLine log.error, 1)
            | some bs =>
              match Checker.checkProof env args.fill bs s with
              | .error .panic _ => none
              | .ok () s => some (out ++ logLine log.proof ++ printSteps {} s.tout ++ ascii "s VERIFIED" ++ [10], 0)
              | .error _ s =>
                some (out ++ logLine log.proof ++ printSteps {} s.tout ++ logLine log.error ++ logLine log.failedStep ++
                  ascii "s NOT VERIFIED" ++ [10], 1)

/-- The contents of the file of `--write-lrat` (`--write-clrat` if `binary`) after `check_main`, `check.rs:51-63`: the
processor gets all checked steps and is dropped at the end, also after an error. Without the file (no input, or not
created) this is empty. Assumed is that no write to the file fails; unwinding is modelled like an error. -/
def lratFile (env : Checker.Env) (args : CheckArgs) (binary : Bool) : Bytes :=
  let file := fun s : Checker.St => Lrat.output binary (s.out.map Lrat.Op.step)
  match args.input with
  | none => []
  | some input =>
    if !args.creates then []
    else if input.fails then file {}
    else
      match DimacsParser.parseIncremental .new (input.chunks.map (·, true)) true with
      | (_, fs, err) =>
        match addAll env fs {} with
        | .error _ s => file s
        | .ok () s =>
          match err, args.proof with
          | none, some bs =>
            match Checker.checkProof env args.fill bs s with
            | .error _ s => file s
            | .ok () s => file s
          | _, _ => file s

end Varisat.Cli
