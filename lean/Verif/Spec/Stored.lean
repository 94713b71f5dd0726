import Verif.Model.Solver.Vars
import Verif.Spec.Sat
/-!
# Specification: what the clauses and values stored in the solver say

The solver stores binary clauses, long clauses, the literals assigned in level 0 and, for variables that
were removed from the search, a value. All of these are constraints on the global variables.
-/
namespace Varisat.Solver

variable {α : Type}

/-- The literal is assigned, and not in a level above 0. -/
def Fixed (s : St α) (l : Lit) : Prop := s.p.isTrue l = true ∧ (l ∈ s.p.trail → s.p.level l.var = 0)

/-- The assignment `σ` of the global variables satisfies everything that is stored, apart from learned
clauses; `ν` is the same assignment for the solver variables. -/
structure Models (s : St α) (σ : Asg) : Prop where
  ex : ∃ ν : Asg, (∀ v g, s.vars.gfs.map v = some g → ν v = σ g) ∧
    (∀ l m, m ∈ s.bins.byLit l → l.holds ν → m.holds ν) ∧
    (∀ c ∈ s.db.clauses, (s.db.hdr c).deleted = false → (s.db.hdr c).tier = .irred → clauseSat ν (s.db.lits c)) ∧
    ∀ l, (s.vars.gfs.map l.var).isSome = true → Fixed s l → l.holds ν
  units : ∀ (g : Nat) (d : VarData) (b : Bool), s.vars.data[g]? = some d → d.deleted = false → d.unit = some b → σ g = b

/-- The values of the user variables can be extended to an assignment that satisfies everything stored. -/
def Stored (s : St α) (ρ : Asg) : Prop :=
  ∃ σ, Models s σ ∧ ∀ u g, s.vars.gfu.map u = some g → σ g = ρ u

end Varisat.Solver
