import Verif.Model.ProofFormat
import Verif.Spec.Answers
/-!
# Specification: what a proof consists of

A proof is a list of steps. Every call of the solver contributes a part.
-/
namespace Varisat

/-- The step names variables or forgets a clause that holds anyway. -/
def ProofStep.Prepares : ProofStep → Prop
  | .userVarName _ _ | .solverVarName _ _ | .changeSamplingMode _ _ | .deleteClause _ .satisfied => True
  | _ => False

/-- The step adds a consequence, or forgets a clause or a variable. -/
def ProofStep.Derives : ProofStep → Prop
  | .atClause _ _ _ | .unitClauses _ | .deleteClause _ _ | .solverVarName _ none | .deleteVar _ => True
  | _ => False

/-- Is the step a model? -/
def ProofStep.isModel : ProofStep → Bool
  | .model _ => true
  | _ => false

/-- Is the step a clause of the formula? -/
def ProofStep.isAdd : ProofStep → Bool
  | .addClause _ => true
  | _ => false

namespace Api

/-- The part of the proof that belongs to a call and its result, after the calls `h`. -/
def Part (h : Hist) (y : Call × List Nat) (L : List ProofStep) : Prop :=
  match y.1 with
  | .addClause _ =>
    -- one clause, or nothing if the formula is known to be unsatisfiable
    (∃ A c B, L = A ++ .addClause c :: B ∧ ∀ st ∈ A ++ B, st.Prepares) ∨ (L = [] ∧ ∃ a, Abs.Run {} h a ∧ Unsat a.clauses)
  | .solve =>
    -- an answer known from before, or a derivation that ends with the answer
    (y.2 = [1] ∧ found h = true ∧ L = []) ∨
    (y.2 = [1] ∧ found h = false ∧ ∃ D m, L = D ++ [.model m] ∧ ∀ st ∈ D, st.Derives) ∨
    (y.2 = [0] ∧ L = []) ∨
    (y.2 = [0] ∧ (∀ st ∈ L, st.Derives) ∧ ∃ a, Abs.Run {} h a ∧ Unsat a.clauses) ∨
    (y.2 = [0] ∧ ∃ D core hs, L = D ++ [.failedAssumptions core hs] ∧ ∀ st ∈ D, st.Derives)
  | .assume _ => ∃ A ls, L = A ++ [.assumptions ls] ∧ ∀ st ∈ A, st.Prepares
  | .hideVar _ => ∀ st ∈ L, st.Prepares ∨ ∃ v, st = .deleteVar v
  | _ => ∀ st ∈ L, st.Prepares

/-- A list of steps that has a part for every call, in order. -/
inductive Shape : Hist → List ProofStep → Prop
  | nil : Shape [] []
  | call {h L y M} : Shape h L → Part h y M → Shape (h ++ [y]) (L ++ M)

/-- No assumptions are ever set, and no clause is added after a call of `solve`. -/
def OneShot (h : Hist) : Prop :=
  (∀ x ∈ h, ∀ ls, x.1 ≠ .assume ls) ∧ h.Pairwise fun x y => x.1 = .solve → ∀ c, y.1 ≠ .addClause c

/-- The number of times `solve` answered `true` with a new model. -/
def newModels (h : Hist) : Nat :=
  (h.foldl (fun (b : Bool × Nat) y => match y.1 with
    | .solve => if y.2 == [1] then (true, if b.1 then b.2 else b.2 + 1) else (false, b.2)
    | .addClause _ | .assume _ => (false, b.2)
    | _ => b) (false, 0)).2

end Api
end Varisat
