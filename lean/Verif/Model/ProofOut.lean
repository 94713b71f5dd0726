import Verif.Model.Checker
import Verif.Model.LratBuffer
/-!
# Model: proof output and solver errors (`varisat/src/proof.rs`, `map_step.rs`, `solver.rs:138-238`)

The state below is the part of the solver that proof output and error handling work on. What the rest
of the solver does is reduced to the events by which it reaches this part: steps and clauses handed to
`proof::add_step` and `proof::add_clause`, and changes of `sat_state` and `formula_is_empty`. Any
sequence of events is allowed, so the theorems hold for whatever the search does.

Simplifications: the variables of a step are already mapped to global names (`mapStep?` in
`Solver/Vars.lean` models that half of `map_step.rs`); what is recorded for a target is the sequence of
steps given to its encoder, and every encoded step or flush is one I/O operation that succeeds or not
as the environment says; the checker is the model of `varisat-checker`.
-/
namespace Varisat.Out

/-- `ProofFormat`, `proof.rs:20-25`. -/
inductive Format
  | varisat | drat | binaryDrat
deriving DecidableEq, Repr

/-- `SolverError`, `solver.rs:27-42`; the causes are not modelled. -/
inductive SErr
  | interrupted | processor | io
deriving DecidableEq, Repr

/-- `is_recoverable`, `solver.rs:46-48`. -/
def SErr.recoverable : SErr → Bool
  | .interrupted => true
  | _ => false

/-- `SatState`, `state.rs:6-11`. -/
inductive Sat
  | unknown | sat | unsat | unsatUnder
deriving DecidableEq, Repr

/-- `clause_count_delta`, `proof.rs:28-55`. -/
def delta : ProofStep → Int
  | .addClause c | .atClause _ c _ => if c.length > 1 then 1 else 0
  | .deleteClause c _ => if c.length > 1 then -1 else 0
  | _ => 0

/-- `Proof`, `proof.rs:58-82`; `written` are the steps given to the encoder of the current target and
`given` the steps for which that happened, with the full hashes. -/
structure Proof where
  format : Option Format := none
  given : List ProofStep := []
  written : List ProofStep := []
  checker : Option Checker.St := none
  hashBits : Nat := 64
  count : Int := 0

/-- A former target: its format, the steps given and the steps written. -/
structure File where
  format : Format
  given : List ProofStep
  written : List ProofStep
deriving DecidableEq, Repr

/-- `ProofP`, and of `SolverState` (`state.rs:24-45`) all fields. Beyond the code, `ios` counts I/O
operations, `rejected` the errors returned by proof processors, and `files` keeps the former targets. -/
structure Sess where
  proof : Proof := {}
  sat : Sat := .unknown
  empty : Bool := true
  invoked : Bool := false
  invalid : Bool := false
  error : Option SErr := none
  ios : Nat := 0
  rejected : Nat := 0
  files : List File := []

/-- Outside world: which I/O operations succeed, and what surrounds the checker. -/
structure Env where
  io : Nat → Bool
  chk : Checker.Env
  /-- the file given to `WriteLrat`, of the command line tool -/
  lrat : Lrat.Target := .all

/-- The current target. -/
def Proof.file (p : Proof) : List File :=
  match p.format with
  | some f => [⟨f, p.given, p.written⟩]
  | none => []

/-- `*proof = Proof::default()`. -/
def Sess.drop (s : Sess) : Sess := { s with proof := {}, files := s.files ++ s.proof.file }

/-- The growing loop, `proof.rs:227-230`. -/
def grow (count : Int) (bits : Nat) : Nat :=
  if count > 2 ^ (bits / 2) then grow count (bits + 2) else bits
termination_by (count - 2 ^ (bits / 2)).toNat
decreasing_by
  have : (2 : Int) ^ ((bits + 2) / 2) = 2 * 2 ^ (bits / 2) := by
    rw [Nat.add_div_right _ (by decide), Int.pow_succ]; omega
  have h1 : (0 : Int) < 2 ^ (bits / 2) := Int.pow_pos (by decide)
  omega

/-- The shrinking loop, `proof.rs:232-235`. -/
def shrink (count : Int) (bits : Nat) : Nat :=
  if bits > 6 ∧ count * 4 < 2 ^ (bits / 2) then shrink count (bits - 2) else bits
termination_by bits

/-- `MapStep::map`, `map_step.rs:24-127`, with the variables unchanged. -/
def mapHashes (f : Nat → Nat) : ProofStep → ProofStep
  | .atClause r c h => .atClause r c (h.map f)
  | .unitClauses us => .unitClauses (us.map fun u => (u.1, f u.2))
  | .failedAssumptions c h => .failedAssumptions c (h.map f)
  | st => st

/-- A `write_step` call on the target: whether it succeeded. -/
def put (e : Env) (s : Sess) (st : ProofStep) : Sess × Bool :=
  if e.io s.ios then
    ({ s with proof := { s.proof with written := s.proof.written ++ [st] }, ios := s.ios + 1 }, true)
  else ({ s with ios := s.ios + 1 }, false)

/-- The `write_step` call for a given step. -/
def putStep (e : Env) (s : Sess) (st out : ProofStep) : Sess × Bool :=
  let (s, ok) := put e s out
  (if ok then { s with proof := { s.proof with given := s.proof.given ++ [st] } } else s, ok)

/-- The number of hash bits `write_varisat_step` uses, `proof.rs:223-236`. -/
def nextBits (invoked : Bool) (count : Int) (bits : Nat) : Nat :=
  let bits := grow count bits
  if invoked then shrink count bits else bits

/-- Whether one of the two loops was entered (`rehash`), `proof.rs:225-236`. -/
def rehashed (invoked : Bool) (count : Int) (bits : Nat) : Bool :=
  decide (count > 2 ^ (bits / 2)) ||
    (invoked && decide (grow count bits > 6 ∧ count * 4 < 2 ^ (grow count bits / 2)))

/-- `write_varisat_step`, `proof.rs:217-258`; `none` is a panic (`64 - hash_bits` below zero, as in
builds with overflow checks). -/
def writeVarisat (e : Env) (s : Sess) (st : ProofStep) : Option (Sess × Bool) :=
  let count := s.proof.count + delta st
  let bits := nextBits s.invoked count s.proof.hashBits
  let r := rehashed s.invoked count s.proof.hashBits
  let s := { s with proof := { s.proof with count := count, hashBits := bits } }
  let (s, ok) := if r then put e s (.changeHashBits bits) else (s, true)
  if !ok then some (s, false)
  else if bits > 64 then none
  else some (putStep e s st (mapHashes (· >>> (64 - bits)) st))

/-- `handle_io_errors`, `proof.rs:315-323`. -/
def handleIo (s : Sess) (ok : Bool) : Sess :=
  if ok then s else { s.drop with error := some .io }

/-- `handle_self_check_result`, `proof.rs:291-312`; `none` is the panic. -/
def handleCheck (s : Sess) : EStateM.Result Checker.Err Checker.St Unit → Option Sess
  | .ok () c => some { s with proof := { s.proof with checker := some c } }
  | .error .processor _ => some { s.drop with error := some .processor, rejected := s.rejected + 1 }
  | .error _ _ => none

/-- `io_result` of `add_step`, `proof.rs:190-201`; steps that DRAT does not know panic, `drat.rs:30-37`. -/
def writeOut (e : Env) (s : Sess) (st : ProofStep) : Option (Sess × Bool) :=
  match s.proof.format with
  | some .varisat => writeVarisat e s st
  | some _ => if (Drat.steps st).isSome then some (putStep e s st st) else none
  | none => some (s, true)

/-- Passing a call to the checker, `proof.rs:205-209`, `proof.rs:141-150` and `proof.rs:282-285`. -/
def tell (s : Sess) (m : Checker.CM Unit) : Option Sess :=
  match s.proof.checker with
  | some c => handleCheck s (m c)
  | none => some s

/-- `add_step`, `proof.rs:164-214`. -/
def addStep (e : Env) (s : Sess) (st : ProofStep) : Option Sess :=
  if s.error.isSome then some s
  else
    match writeOut e s st with
    | none => none
    | some (s, false) => some (handleIo s false)
    | some (s, true) => tell s (Checker.selfCheckStep e.chk st)

/-- `add_clause`, `proof.rs:132-156`. -/
def addClause (e : Env) (s : Sess) (c : List Lit) : Option Sess :=
  if s.invoked then addStep e s (.addClause c)
  else
    match tell s (Checker.addClause e.chk c) with
    | none => none
    | some s =>
      some (if c.length > 1 then { s with proof := { s.proof with count := s.proof.count + 1 } } else s)

/-- `flush_proof`, `proof.rs:261-265`. A target that was not set is a sink, which cannot fail. -/
def flush (e : Env) (s : Sess) : Sess :=
  if s.proof.format.isSome then handleIo { s with ios := s.ios + 1 } (e.io s.ios) else s

/-- `proof::close_proof`, `proof.rs:268-275`. -/
def closeOutput (e : Env) (s : Sess) : Option Sess :=
  match addStep e s .end_ with
  | none => none
  | some s =>
    let s := flush e s
    some { s with
      proof := { s.proof with format := none, given := [], written := [] }
      files := s.files ++ s.proof.file }

/-- `solve_finished`, `proof.rs:280-286`. -/
def solveFinished (e : Env) (s : Sess) : Option Sess :=
  tell (flush e s) (Checker.processUnitConflicts e.chk)

/-- How the rest of the solver acts on this part of the state. -/
inductive Ev
  | step (st : ProofStep)
  | clause (c : List Lit)
  | sat (v : Sat)
  | nonEmpty
deriving DecidableEq, Repr

def Ev.exec (e : Env) (s : Sess) : Ev → Option Sess
  | .step st => addStep e s st
  | .clause c => addClause e s c
  | .sat v => some { s with sat := v }
  | .nonEmpty => some { s with empty := false }

def runEvs (e : Env) : List Ev → Sess → Option Sess
  | [], s => some s
  | ev :: evs, s =>
    match ev.exec e s with
    | none => none
    | some s => runEvs e evs s

/-- `while schedule_step(..) {}`, `solver.rs:147`, `schedule.rs:61-65`: one list of events for each step
of the schedule. The outer `none` is a panic, the inner one means that the loop has not ended. -/
def schedule (e : Env) : List (List Ev) → Sess → Option (Option Sess)
  | steps, s =>
    if s.sat ≠ .unknown ∨ s.error.isSome then some (some s)
    else match steps with
      | [] => some none
      | evs :: rest =>
        match runEvs e evs s with
        | none => none
        | some s => schedule e rest s

/-- `check_for_solver_error`, `solver.rs:164-176`. -/
def takeError (s : Sess) : Sess × Option SErr :=
  match s.error with
  | some er => ({ s with error := none, invalid := if er.recoverable then s.invalid else true }, some er)
  | none => (s, none)

/-- What a call of the public interface returns. -/
inductive Ret
  | unit | answer (b : Bool) | err (er : SErr)
deriving DecidableEq, Repr

/-- `Solver::solve`, `solver.rs:138-158`. -/
def solve (e : Env) (steps : List (List Ev)) (s : Sess) : Option (Option (Sess × Ret)) :=
  let s := { s with invoked := true }
  if s.invalid then none
  else
    match schedule e steps s with
    | none => none
    | some none => some none
    | some (some s) =>
      match solveFinished e s with
      | none => none
      | some s =>
        match takeError s with
        | (s, some er) => some (some (s, .err er))
        | (s, none) => some (some (s, match s.sat with
            | .unknown => .err .interrupted
            | .sat => .answer true
            | .unsat | .unsatUnder => .answer false))

/-- `Solver::close_proof`, `solver.rs:234-238`. -/
def close (e : Env) (s : Sess) : Option (Sess × Ret) :=
  match closeOutput e s with
  | none => none
  | some s =>
    match takeError s with
    | (s, some er) => some (s, .err er)
    | (s, none) => some (s, .unit)

/-- `Solver::write_proof`, `solver.rs:223-229`, `proof.rs:86-89`. -/
def writeProof (f : Format) (s : Sess) : Option Sess :=
  if s.empty then some { s with
      proof := { s.proof with format := some f, given := [], written := [] }
      files := s.files ++ s.proof.file }
  else none

/-- `Solver::enable_self_checking`, `solver.rs:243-249`, `proof.rs:92-96`; `add_proof_processor` acts in
the same way on this state. -/
def selfCheck (s : Sess) : Option Sess :=
  if s.empty then some { s with proof := { s.proof with checker := some (s.proof.checker.getD {}) } }
  else none

/-- A call of the public interface. `call` is any method other than those named: adding clauses and
variables, assumptions, sampling modes, … -/
inductive Op
  | writeProof (f : Format)
  | selfCheck
  | call (evs : List Ev)
  | solve (steps : List (List Ev))
  | close
deriving DecidableEq, Repr

/-- One call: `none` is a panic; the inner `none` a `solve` that has not returned. -/
def Op.exec (e : Env) (s : Sess) : Op → Option (Option (Sess × Ret))
  | .writeProof f => (Out.writeProof f s).map fun s => some (s, .unit)
  | .selfCheck => (Out.selfCheck s).map fun s => some (s, .unit)
  | .call evs => (runEvs e evs s).map fun s => some (s, .unit)
  | .solve steps => Out.solve e steps s
  | .close => (Out.close e s).map some

/-- The states reached by calls that return, with what they returned. -/
inductive Ran (e : Env) : Sess → List (Op × Ret) → Sess → Prop
  | nil {s} : Ran e s [] s
  | snoc {s s' s'' h r} (op : Op) : Ran e s h s' → op.exec e s' = some (some (s'', r)) →
      Ran e s (h ++ [(op, r)]) s''

end Varisat.Out
