import Verif.Model.Solver.PropRaw
import Verif.Model.Solver.Cdcl
import Verif.Proof.Solver.Db
/-!
# Specification: the memory of a solver state

What it means that the arrays used by the propagation (`Model/Solver/PropRaw`) contain a solver state.
-/
namespace Varisat.Solver.Raw
variable {α : Type} [LinearOrder α]

/-- The array with the lists of all literals of `n` variables. -/
def byCode {β : Type} (n : Nat) (f : Lit → List β) : List (List β) := (List.range (2 * n)).map (fun i => f ⟨i⟩)

/-- The memory contains the assignment, the lists of watches, and the clauses that are not deleted. -/
structure Image (s : St α) (w : Wl) (m : Mem) : Prop where
  clause : ∀ c, s.db.Live c → ∃ h, (Buf.mk m.words).clause c = some (h, (s.db.lits c).map ofLit)
  p : m.p = s.p
  vars : m.vars = s.varCount
  watches : m.watches = byCode s.varCount w.watches

/-- The word belongs to the literals of a clause that is not deleted. -/
def InLits (s : St α) (i : Nat) : Prop := ∃ c, s.db.Live c ∧ c + 3 ≤ i ∧ i < c + 3 + (s.db.lits c).length

end Varisat.Solver.Raw
