import Verif.Model.Cli
import Verif.Model.Joint
/-!
# Model: proof files and self checking in the command line tool (`varisat-cli/src/main.rs:146-197`)

`Cli.lean` has the output and the exit status with the failures of the proof output as a parameter. Here the solver runs
together with the proof output, and the contents of the proof file is part of the result.

Simplifications: as in `Joint.lean`, a call is run to its end before its steps are written and checked. After a failed write
the file has the steps written before (a step may be there in part), and the file of an LRAT processor that failed
is not modelled (`none`).
-/
namespace Varisat.Cli
open Solver (Stop)

variable {α : Type} [LinearOrder α]

/-- `--proof-format`, `main.rs:79-86` and `main.rs:152-164`. -/
inductive ProofKind
  /-- `varisat`, `drat` and `binary-drat`: written by the solver -/
  | steps (f : Out.Format)
  /-- `lrat`, and `clrat` if `binary`: written by a processor of checked steps -/
  | lrat (binary : Bool)
deriving DecidableEq, Repr

/-- The results of argument parsing and of the file system, see `Args`. -/
structure FileArgs where
  optionHelp : Bool := false
  configs : List (Option Config.Update) := []
  input : Option Source
  /-- `--proof` with the format, and whether the file can be created -/
  proof : Option (ProofKind × Bool) := none
  /-- `--self-check` -/
  check : Bool := false

/-- The solver after `main.rs:146-174`: `write_proof`, `add_proof_processor`, `enable_self_checking`. -/
def FileArgs.sess (a : FileArgs) : Out.Sess :=
  match a.proof with
  | some (.steps f, _) => Solver.setup (some f) a.check
  | some (.lrat _, _) => Solver.setup none true
  | none => Solver.setup none a.check

/-- `add_formula`, `solver.rs:72-77`. -/
def loadJoint (e : Solver.Env α) (env : Out.Env) (cs : List (List Lit)) (q : Solver.St α × Out.Sess) : Except Stop (Solver.St α × Out.Sess) :=
  cs.foldlM (fun q c =>
    match q.1.joint e env (.addClause c) q.2 with
    | .error x => .error x
    | .ok (s, o, _, _) => .ok (s, o)) q

/-- `add_formula` for a list of formulas. -/
def addFormulasJoint (e : Solver.Env α) (env : Out.Env) : List CnfFormula → Solver.St α × Out.Sess → Except Stop (Solver.St α × Out.Sess)
  | [], q => .ok q
  | f :: fs, q =>
    match f.iter with
    | none => .error .panic
    | some cs =>
      match loadJoint e env cs q with
      | .error x => .error x
      | .ok q => addFormulasJoint e env fs q

/-- The end of `main_with_err`, `main.rs:178-197`: the output, the exit status and the state of the proof output. -/
def answerJoint (e : Solver.Env α) (env : Out.Env) (fuel : Nat) (log : Log) (s : Solver.St α) (o : Out.Sess) : Option (Bytes × Nat × Out.Sess) :=
  match s.joint e env (.solve fuel) o with
  | .error _ => none
  | .ok (_, o, _, some _) => some (logLine log.error ++ ascii "s UNKNOWN" ++ [10], 0, o)
  | .ok (s, o, r, none) =>
    if r = [0] then some (ascii "s UNSATISFIABLE" ++ [10], 20, o)
    else
      match s.modelLits with
      | some (some m) =>
        some (ascii "s SATISFIABLE" ++ [10] ++ ascii "v" ++ m.flatMap (fun l => ascii " " ++ decInt l.toDimacs) ++
          ascii " 0" ++ [10], 10, o)
      | _ => none

/-- The proof file when `main_with_err` has returned: `Drop for Solver`, `solver.rs:293-297`, calls `close_proof` and ignores
its error; after that the LRAT processor is dropped (`varisat-lrat/src/lib.rs:211-215`), which was declared before the solver
(`main.rs:125-127`). The outer `none` is a panic, the inner one means that there is no file. -/
def dropped (env : Out.Env) (kind : Option ProofKind) (o : Out.Sess) : Option (Option Bytes) :=
  match Out.close env o with
  | none => none
  | some (o, _) =>
    match kind with
    | none => some none
    | some (.lrat binary) => some (o.proof.checker.map fun c => Lrat.Io.file env.lrat binary c.out)
    | some (.steps f) =>
      match o.files.getLast? with
      | none => some none
      | some file =>
        match f with
        | .varisat => some (some (file.written.flatMap Fmt.writeStep))
        | .drat => (Drat.output false file.written).map some
        | .binaryDrat => (Drat.output true file.written).map some

/-- A result with the proof file. -/
def finish (env : Out.Env) (kind : Option ProofKind) (out : Bytes) (code : Nat) (o : Out.Sess) : Option (Bytes × Nat × Option Bytes) :=
  match dropped env kind o with
  | none => none
  | some file => some (out, code, file)

/-- `main_with_err` and `main` from the opened input on, `main.rs:143-197`, see `solveInput`. -/
def solveFile (e : Solver.Env α) (env : Out.Env) (fuel : Nat) (log : Log) (args : FileArgs) (input : Source) (out : Bytes) :
    Option (Bytes × Nat × Option Bytes) :=
  let kind := args.proof.map (·.1)
  let go (out : Bytes) : Option (Bytes × Nat × Option Bytes) :=
    if input.fails then finish env kind (out ++ logLine log.error) 1 args.sess
    else
      match DimacsParser.parseIncremental .new (input.chunks.map (·, true)) true with
      | (_, fs, err) =>
        match addFormulasJoint e env fs (Solver.St.new e, args.sess) with
        | .error _ => none
        | .ok (s, o) =>
          match err with
          | some _ => finish env kind (out ++ logLine log.error) 1 o
          | none =>
            match answerJoint e env fuel log s o with
            | none => none
            | some (a, code, o) => finish env kind (out ++ log.solving.flatMap logLine ++ a) code o
  match args.proof with
  | none => go out
  | some (.lrat _, creates) =>
    if creates then go (out ++ logLine log.proof) else some (out ++ logLine log.error, 1, none)
  | some (.steps _, creates) =>
    if creates then go (out ++ logLine log.proof) else some (out ++ logLine log.proof ++ logLine log.error, 1, none)

/-- `main` and `main_with_err`, `main.rs:18-27, 60-197`, without `--check`: the output, the exit status and the proof file. -/
def runFile (recip : Config.F32 → Config.F32) (env : Config.SolverConfig → Solver.Env α) (penv : Out.Env) (fuel : Nat) (log : Log)
    (args : FileArgs) : Option (Bytes × Nat × Option Bytes) :=
  if args.optionHelp then some (help, 0, none)
  else
    let out := logLine log.banner1 ++ logLine log.banner2
    match mergeConfigs {} args.configs with
    | none => some (out ++ logLine log.error, 1, none)
    | some u =>
      match (Config.St.new recip).configure recip u with
      | none => none
      | some (_, .error _) => some (out ++ logLine log.error, 1, none)
      | some (c, .ok ()) =>
        match args.input with
        | none => some (out ++ logLine log.reading ++ logLine log.error, 1, none)
        | some input => solveFile (env c.config) penv fuel log args input (out ++ logLine log.reading)

end Varisat.Cli
