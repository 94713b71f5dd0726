/-!
# Specification: propositional logic

The vocabulary in which the soundness properties are stated: literals, assignments,
satisfaction, entailment.  Nothing here depends on the model of the code.

A literal is represented by its code: twice the variable index, plus one if it is negative
(documented in `varisat-formula/src/lit.rs:118-120`).
-/
namespace Varisat

/-- A literal, given by its code (`varisat-formula/src/lit.rs:125-127`). The `u32` bound on the
code is not part of the type; it is proved not to matter for supported variables in
`Verif.Props.C01_Lit`. -/
structure Lit where
  code : Nat
deriving DecidableEq, Repr, Inhabited

/-- An assignment gives a truth value to each variable index. -/
abbrev Asg := Nat → Bool

namespace Lit
/-- 0-based variable index (`lit.rs:193-203`, `code >> 1`). -/
def var (l : Lit) : Nat := l.code / 2
/-- Sign of the literal (`lit.rs:207-209`, `code & 1 != 0`). -/
def isNeg (l : Lit) : Bool := l.code % 2 == 1
/-- The literal is true under an assignment. -/
def holds (a : Asg) (l : Lit) : Prop := a l.var = !l.isNeg
end Lit

/-- A clause (disjunction) is satisfied. -/
def clauseSat (a : Asg) (c : List Lit) : Prop := ∃ l ∈ c, l.holds a

/-- A formula (conjunction of clauses) is satisfied. -/
def cnfSat (a : Asg) (f : List (List Lit)) : Prop := ∀ c ∈ f, clauseSat a c

/-- All literals of a list (a conjunction, e.g. assumptions) hold. -/
def allHold (a : Asg) (ls : List Lit) : Prop := ∀ l ∈ ls, l.holds a

/-- The formula has no satisfying assignment. -/
def Unsat (f : List (List Lit)) : Prop := ∀ a, ¬ cnfSat a f

/-- The formula has no satisfying assignment that makes all the literals `ls` true. -/
def UnsatUnder (f : List (List Lit)) (ls : List Lit) : Prop :=
  ∀ a, cnfSat a f → ¬ allHold a ls

/-- Every satisfying assignment of the formula satisfies the clause. -/
def Entails (f : List (List Lit)) (c : List Lit) : Prop := ∀ a, cnfSat a f → clauseSat a c

/-- Two formulas have the same satisfying assignments. -/
def EquivCnf (f g : List (List Lit)) : Prop := ∀ a, cnfSat a f ↔ cnfSat a g

end Varisat
