import Verif.Model.ProofOut
import Verif.Model.Solver.Exec
/-!
# Model: the solver together with its proof output and self checking (`solver.rs`, `proof.rs`)

`Solver/Cdcl.lean` models the solver up to the steps it hands to `proof::add_step` and
`proof::add_clause` (its `log`), `ProofOut.lean` what these functions do. Here the two are put together:
the new steps of every call are handed to the proof output in their order.

Simplifications: a call is run to its end before its steps are handed on. In the code they are handed on
one at a time, but what happens to them is only looked at by `schedule_step` (`schedule.rs:61-65`), which
stops the search after an error, and by `solve` at its end (`solver.rs:149-151`). A `solve` that returns
an error therefore has a different state of the search here; histories (`Joint`) end with it. `Interleave.lean` models
the rounds one by one, and `C73.agrees` shows that nothing else differs. The fields
`sat` and `empty` of `Sess` are not kept up to date: they are only read by `write_proof` and
`enable_self_checking`, which are called first, and by the result of `solve`, which is the one of
`St.step`.
-/
namespace Varisat.Solver

variable {α : Type} [LinearOrder α]

/-- Clauses of the user go through `proof::add_clause` (`load.rs:49`), all other steps through
`proof::add_step`. -/
def toEv : ProofStep → Out.Ev
  | .addClause c => .clause c
  | st => .step st

/-- Hand steps to the proof output; `none` is a panic. -/
def feed (env : Out.Env) (L : List ProofStep) (o : Out.Sess) : Option Out.Sess := Out.runEvs env (L.map toEv) o

/-- A new solver after `write_proof` (if a format is given, `solver.rs:223-229`) and
`enable_self_checking` (if asked for, `solver.rs:243-249`). -/
def setup (f : Option Out.Format) (check : Bool) : Out.Sess :=
  { proof := { format := f, checker := if check then some {} else none } }

/-- A call of the solver with proof output; the last component is the error returned by `solve`,
`solver.rs:138-158`. -/
def St.joint (e : Env α) (env : Out.Env) (op : Op) (s : St α) (o : Out.Sess) :
    Except Stop (St α × Out.Sess × List Nat × Option Out.SErr) :=
  match s.step e op with
  | .error x => .error x
  | .ok (s', r) =>
    match op with
    | .solve _ =>
      if o.invalid then .error .panic
      else
        match feed env (s'.log.drop s.log.length) { o with invoked := true } with
        | none => .error .panic
        | some o =>
          match Out.solveFinished env o with
          | none => .error .panic
          | some o => .ok (s', (Out.takeError o).1, r, (Out.takeError o).2)
    | _ =>
      match feed env (s'.log.drop s.log.length) o with
      | none => .error .panic
      | some o => .ok (s', o, r, none)

/-- The states reached by calls on a new solver with proof output, with the calls and their results; no
call returned an error. -/
inductive Joint (env : Out.Env) (f : Option Out.Format) (check : Bool) : St α → Out.Sess → Api.Hist → Prop
  | new (e : Env α) : Joint env f check (St.new e) (setup f check) []
  | call {s s' : St α} {o o' : Out.Sess} {h : Api.Hist} {op : Op} {r : List Nat} (e : Env α) :
    Joint env f check s o h → e.Ok → s.joint e env op o = .ok (s', o', r, none) →
    Joint env f check s' o' (h ++ [(op.call, r)])

end Varisat.Solver
