import Verif.Model.ProofFormat
/-!
# Specification: the size of a step of a proof
-/
namespace Varisat.ProofStep

/-- The variables of the literals and names in the step. -/
def vars : ProofStep → List Nat
  | .solverVarName g v => g :: v.toList
  | .userVarName g u => g :: u.toList
  | .deleteVar v => [v]
  | .changeSamplingMode v _ => [v]
  | .addClause c | .atClause _ c _ | .deleteClause c _ | .model c | .assumptions c | .failedAssumptions c _ => c.map Lit.var
  | .unitClauses us => us.map fun u => u.1.var
  | .changeHashBits _ | .end_ => []

/-- The literals of the step, apart from those chosen by the caller of `assume`. -/
def lits : ProofStep → List Lit
  | .addClause c | .atClause _ c _ | .deleteClause c _ | .model c | .failedAssumptions c _ => c
  | .unitClauses us => us.map (·.1)
  | _ => []

/-- How many clauses the step refers to as reasons. -/
def reasons : ProofStep → Nat
  | .atClause _ _ hs | .failedAssumptions _ hs => hs.length
  | _ => 0

/-- A step about at most `n` variables: they are numbered from 0, every literal is mentioned at most once, and there is at
most one reason for every variable and one more. -/
structure Within (n : Nat) (st : ProofStep) : Prop where
  vars : ∀ v ∈ st.vars, v < n
  nodup : st.lits.Nodup
  reasons : st.reasons ≤ n + 1

end Varisat.ProofStep
