import Verif.Model.Solver.Trail
import Mathlib.Data.List.Dedup
/-!
# Specification: the number of decision levels of a clause
-/
namespace Varisat.Solver

/-- The number of different decision levels of the variables of a clause. -/
def levelCount (p : Pt) (c : List Lit) : Nat := (c.map (fun l => p.level l.var)).dedup.length

end Varisat.Solver
