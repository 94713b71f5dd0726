import Verif.Model.Checker
/-!
Histories of calls to the checker (`varisat-checker/src/lib.rs:78-152` `Checker::{add_clause,
add_formula}`; `internal.rs:20-30` `SelfChecker::self_check_step`, used by the solver while solving).
`check_proof` is a loop of such steps (`checkLoop` in `Checker.lean`).
-/
namespace Varisat.Checker

/-- A call to the checker. -/
inductive Op
  | add (c : List Lit)
  | step (st : ProofStep)
deriving DecidableEq, Repr

/-- `Checker::add_clause` (`lib.rs:88-91`), `SelfChecker::self_check_step` (`internal.rs:23-27`). -/
def Op.exec (env : Env) : Op → CM Unit
  | .add c => addClause env c
  | .step st => selfCheckStep env st

/-- Clauses added by a call: the formula, as opposed to derived clauses. -/
def Op.added : Op → List (List Lit)
  | .add c => [c]
  | .step (.addClause c) => [c]
  | _ => []

/-- Calls one after the other, all accepted. -/
def execs (env : Env) : List Op → CM Unit
  | [] => pure ()
  | op :: ops => do
    op.exec env
    execs env ops

def added (ops : List Op) : List (List Lit) := ops.flatMap Op.added

/-- The current assumptions after a history: those of the last `Assumptions` step. -/
def assumedBy (init : List Lit) : List Op → List Lit
  | [] => init
  | .step (.assumptions a) :: ops => assumedBy a ops
  | _ :: ops => assumedBy init ops

/-- The history has no `DeleteVar` step. -/
def NoDeleteVar (ops : List Op) : Prop := ∀ v, Op.step (.deleteVar v) ∉ ops

/-- A state reached by accepted calls, and by rejected calls whose rejection is a clean check failure;
`F` are the clauses added by accepted calls. -/
inductive Ran (env : Env) : List (List Lit) → St → Prop
  | init : Ran env [] {}
  | accept {F s s'} (op : Op) : Ran env F s → op.exec env s = .ok () s' → Ran env (F ++ op.added) s'
  | reject {F s s'} (op : Op) (n : Nat) (w : Why) : Ran env F s →
      op.exec env s = .error (.checkFailed n w) s' → (∀ h, w ≠ .noClauseForHash h) → Ran env F s'

end Varisat.Checker
