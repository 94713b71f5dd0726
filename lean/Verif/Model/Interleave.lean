import Verif.Model.Joint
/-!
# Model: `solve` with errors of the proof output (`solver.rs:138-176`, `schedule.rs:61-65`)

As `Joint`, but the steps of each round of the search are handed to the proof output before the next round, which looks at the
stored error first. So the search stops where it does in the code, and histories go on after an error.

Simplification: within a round the steps are handed on at its end. Nothing in a round looks at the stored error.
-/
namespace Varisat.Solver

variable {α : Type} [LinearOrder α]

/-- `while schedule_step(..) {}`, `solver.rs:147`; the test is `schedule.rs:61-65`. -/
def St.rounds (e : Env α) (env : Out.Env) : Nat → St α → Out.Sess → Except Stop (St α × Out.Sess)
  | 0, _, _ => .error .fuel
  | n + 1, s, o =>
    if s.sat ≠ .unknown ∨ o.error.isSome then .ok (s, o)
    else
      match s.scheduleStep e with
      | .error x => .error x
      | .ok (s', _) =>
        match feed env (s'.log.drop s.log.length) o with
        | none => .error .panic
        | some o => rounds e env n s' o

/-- `Solver::solve`, `solver.rs:138-158`. -/
def St.solveI (e : Env α) (env : Out.Env) (n : Nat) (s : St α) (o : Out.Sess) : Except Stop (St α × Out.Sess × Out.Ret) :=
  if o.invalid then .error .panic
  else
    match St.rounds e env n { s with invoked := true } { o with invoked := true } with
    | .error x => .error x
    | .ok (s, o) =>
      match Out.solveFinished env o with
      | none => .error .panic
      | some o =>
        match Out.takeError o with
        | (o, some er) => .ok (s, o, .err er)
        | (o, none) => .ok (s, o, match s.sat with
            | .unknown => .err .interrupted
            | .sat => .answer true
            | .unsat | .unsatUnder => .answer false)

/-- The states reached by calls on a new solver with proof output, with the calls that returned a result and their results. Calls that
returned an error are part of the history of the solver, but not of the list. -/
inductive Life (env : Out.Env) (f : Option Out.Format) (check : Bool) : St α → Out.Sess → Api.Hist → Prop
  | new (e : Env α) : Life env f check (St.new e) (setup f check) []
  /-- a call other than `solve` -/
  | call {s s' : St α} {o o' : Out.Sess} {h : Api.Hist} {op : Op} {r : List Nat} (e : Env α) :
    Life env f check s o h → e.Ok → (∀ n, op ≠ .solve n) → s.joint e env op o = .ok (s', o', r, none) →
    Life env f check s' o' (h ++ [(op.call, r)])
  /-- a `solve` with an answer -/
  | solved {s s' : St α} {o o' : Out.Sess} {h : Api.Hist} {n : Nat} {b : Bool} (e : Env α) :
    Life env f check s o h → e.Ok → s.solveI e env n o = .ok (s', o', .answer b) →
    Life env f check s' o' (h ++ [(.solve, [if b then 1 else 0])])
  /-- a `solve` that returned an error -/
  | failed {s s' : St α} {o o' : Out.Sess} {h : Api.Hist} {n : Nat} {er : Out.SErr} (e : Env α) :
    Life env f check s o h → e.Ok → s.solveI e env n o = .ok (s', o', .err er) → Life env f check s' o' h
  /-- `close_proof` -/
  | close {s : St α} {o o' : Out.Sess} {h : Api.Hist} {r : Out.Ret} :
    Life env f check s o h → Out.close env o = some (o', r) → Life env f check s o' h

end Varisat.Solver
