import Verif.Model.Solver.Cdcl
import Verif.Spec.Api
/-!
# Model: histories of calls of `Solver` (`varisat/src/solver.rs:48-276`)

The parameters (configuration, choice of free indices) may differ from call to call. A call that
panics, or a search that does not end, has no result and is not part of a history.
-/
namespace Varisat.Solver

variable {α : Type} [LinearOrder α]

/-- `freelist.iter().next()` on a `HashSet` yields an element of a set that is not empty
(`variables.rs:189-213`). -/
def Env.Ok (e : Env α) : Prop :=
  (∀ k n, e.pick k n [] = none) ∧ ∀ k n l, l ≠ [] → ∃ x ∈ l, e.pick k n l = some x

/-- The call without the bound on the number of search steps. -/
def Op.call : Op → Api.Call
  | .addClause c => .addClause c
  | .newVar => .newVar
  | .assume ls => .assume ls
  | .solve _ => .solve
  | .witnessVar u => .witnessVar u
  | .sampleVar u => .sampleVar u
  | .hideVar u => .hideVar u
  | .observe => .observe

/-- The states reached by sequences of calls on a new solver, with the calls and their results. -/
inductive Exec : St α → Api.Hist → Prop
  | new (e : Env α) : Exec (St.new e) []
  | call {s s' : St α} {h : Api.Hist} {op : Op} {r : List Nat} (e : Env α) :
    Exec s h → e.Ok → s.step e op = .ok (s', r) → Exec s' (h ++ [(op.call, r)])

end Varisat.Solver
