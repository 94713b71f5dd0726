import Verif.Spec.Stored
/-!
# Specification: clauses, implied literals and decisions of a solver state
-/
namespace Varisat.Solver

variable {α : Type}

/-- The clause is in the database, as a binary or a long clause. -/
inductive InDb (s : St α) : List Lit → Prop
  | bin (l m : Lit) : m ∈ s.bins.byLit l → InDb s [l.neg, m]
  | long (c : Nat) : c ∈ s.db.clauses → (s.db.hdr c).deleted = false → InDb s (s.db.lits c)

/-- The assignment of solver variables satisfies all clauses of the database and all literals that are
assigned without a decision. -/
def DbSat (s : St α) (ν : Asg) : Prop := (∀ c, InDb s c → clauseSat ν c) ∧ ∀ l, Fixed s l → l.holds ν

/-- The clause follows from the database. -/
def Entails (s : St α) (c : List Lit) : Prop := ∀ ν, DbSat s ν → clauseSat ν c

/-- The literals that were assigned by decisions (or assumptions). -/
def decisionLits (s : St α) : List Lit := s.p.decisions.filterMap (fun d => s.p.trail[d]?)

end Varisat.Solver
