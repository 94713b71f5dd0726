import Verif.Model.CliFile
import Verif.Model.ProofBuffer
/-!
# Model: the command line tool with the `BufWriter` of its proof file (`varisat-cli/src/main.rs:146-197`)

`CliFile` with the proof output of `ProofBuffer`: the proof file is a target that may take only a part of the bytes offered and may
fail at any call.

Simplifications: those of `Joint` and `ProofBuffer`. If the LRAT processor has failed, its file is not modelled (`none`).
-/
namespace Varisat.Cli
open Out.Buf (B Dev)

variable {α : Type} [LinearOrder α]

/-- A call of the solver with proof output, see `St.joint`. -/
def jointB (e : Solver.Env α) (d : Dev) (op : Solver.Op) (s : Solver.St α) (b : B) : Option (Solver.St α × B × List Nat × Option Out.SErr) :=
  match s.step e op with
  | .error _ => none
  | .ok (s', r) =>
    match op with
    | .solve _ =>
      if b.s.invalid then none
      else
        match Out.Buf.runEvs d ((s'.log.drop s.log.length).map Solver.toEv) { b with s := { b.s with invoked := true } } with
        | none => none
        | some b =>
          match Out.Buf.solveFinished d b with
          | none => none
          | some b => some (s', (Out.Buf.takeError b).1, r, (Out.Buf.takeError b).2)
    | _ =>
      match Out.Buf.runEvs d ((s'.log.drop s.log.length).map Solver.toEv) b with
      | none => none
      | some b => some (s', b, r, none)

/-- `add_formula`, `solver.rs:72-77`. -/
def loadB (e : Solver.Env α) (d : Dev) : List (List Lit) → Solver.St α × B → Option (Solver.St α × B)
  | [], q => some q
  | c :: cs, q =>
    match jointB e d (.addClause c) q.1 q.2 with
    | none => none
    | some (s, b, _, _) => loadB e d cs (s, b)

/-- `add_formula` for a list of formulas. -/
def addFormulasB (e : Solver.Env α) (d : Dev) : List CnfFormula → Solver.St α × B → Option (Solver.St α × B)
  | [], q => some q
  | f :: fs, q =>
    match f.iter with
    | none => none
    | some cs =>
      match loadB e d cs q with
      | none => none
      | some q => addFormulasB e d fs q

/-- The end of `main_with_err`, `main.rs:178-197`. -/
def answerB (e : Solver.Env α) (d : Dev) (fuel : Nat) (log : Log) (s : Solver.St α) (b : B) : Option (Bytes × Nat × B) :=
  match jointB e d (.solve fuel) s b with
  | none => none
  | some (_, b, _, some _) => some (logLine log.error ++ ascii "s UNKNOWN" ++ [10], 0, b)
  | some (s, b, r, none) =>
    if r = [0] then some (ascii "s UNSATISFIABLE" ++ [10], 20, b)
    else
      match s.modelLits with
      | some (some m) =>
        some (ascii "s SATISFIABLE" ++ [10] ++ ascii "v" ++ m.flatMap (fun l => ascii " " ++ decInt l.toDimacs) ++
          ascii " 0" ++ [10], 10, b)
      | _ => none

/-- The proof file when `main_with_err` has returned, see `dropped`. -/
def droppedB (d : Dev) (kind : Option ProofKind) (b : B) : Option (Option Bytes) :=
  match Out.Buf.close d b with
  | none => none
  | some (b, _) =>
    match kind with
    | none => some none
    | some (.lrat binary) => some (b.s.proof.checker.map fun c => Lrat.Io.file d.lrat binary c.out)
    | some (.steps _) => some b.files.getLast?

/-- A result with the proof file. -/
def finishB (d : Dev) (kind : Option ProofKind) (x : Bytes × Nat × B) : Option (Bytes × Nat × Option Bytes) :=
  match droppedB d kind x.2.2 with
  | none => none
  | some file => some (x.1, x.2.1, file)

/-- `main_with_err` from the created proof file on, `main.rs:176-197`, before the solver is dropped. -/
def endedB (e : Solver.Env α) (d : Dev) (fuel : Nat) (log : Log) (args : FileArgs) (input : Source) (out : Bytes) : Option (Bytes × Nat × B) :=
  if input.fails then some (out ++ logLine log.error, 1, { s := args.sess })
  else
    match DimacsParser.parseIncremental .new (input.chunks.map (·, true)) true with
    | (_, fs, err) =>
      match addFormulasB e d fs (Solver.St.new e, { s := args.sess }) with
      | none => none
      | some (s, b) =>
        match err with
        | some _ => some (out ++ logLine log.error, 1, b)
        | none =>
          match answerB e d fuel log s b with
          | none => none
          | some (a, code, b) => some (out ++ log.solving.flatMap logLine ++ a, code, b)

/-- `main_with_err` and `main` from the opened input on, `main.rs:143-197`, see `solveFile`. -/
def solveDisk (e : Solver.Env α) (d : Dev) (fuel : Nat) (log : Log) (args : FileArgs) (input : Source) (out : Bytes) :
    Option (Bytes × Nat × Option Bytes) :=
  let go (out : Bytes) := (endedB e d fuel log args input out).bind (finishB d (args.proof.map (·.1)))
  match args.proof with
  | none => go out
  | some (.lrat _, creates) =>
    if creates then go (out ++ logLine log.proof) else some (out ++ logLine log.error, 1, none)
  | some (.steps _, creates) =>
    if creates then go (out ++ logLine log.proof) else some (out ++ logLine log.proof ++ logLine log.error, 1, none)

/-- `main` and `main_with_err`, `main.rs:18-27, 60-197`, without `--check`, see `runFile`. -/
def runDisk (recip : Config.F32 → Config.F32) (env : Config.SolverConfig → Solver.Env α) (d : Dev) (fuel : Nat) (log : Log)
    (args : FileArgs) : Option (Bytes × Nat × Option Bytes) :=
  if args.optionHelp then some (help, 0, none)
  else
    let out := logLine log.banner1 ++ logLine log.banner2
    match mergeConfigs {} args.configs with
    | none => some (out ++ logLine log.error, 1, none)
    | some u =>
      match (Config.St.new recip).configure recip u with
      | none => none
      | some (_, .error _) => some (out ++ logLine log.error, 1, none)
      | some (c, .ok ()) =>
        match args.input with
        | none => some (out ++ logLine log.reading ++ logLine log.error, 1, none)
        | some input => solveDisk (env c.config) d fuel log args input (out ++ logLine log.reading)

end Varisat.Cli
