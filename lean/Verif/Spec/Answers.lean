import Verif.Spec.Api
/-!
# Specification: which calls keep an answer of `solve`
-/
namespace Varisat.Api

/-- The call does not solve, add a clause or assume. -/
def Call.Quiet : Call → Prop
  | .solve | .addClause _ | .assume _ => False
  | _ => True

/-- The last answer of `solve` was `true` and since then no clause was added and no assumption made. -/
def found (h : Hist) : Bool :=
  h.foldl (fun b y => match y.1 with
    | .solve => y.2 == [1]
    | .addClause _ | .assume _ => false
    | _ => b) false

/-- The call uses a user variable that may stand for nothing after `h`. -/
def Creates (h : Hist) : Call → Prop
  | .newVar => True
  | .witnessVar u | .sampleVar u | .hideVar u => ¬ ∀ a, Abs.Run {} h a → a.name u ≠ none
  | _ => False

end Varisat.Api
