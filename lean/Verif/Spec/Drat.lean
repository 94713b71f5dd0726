/-!
# Specification: checking a DRAT proof

Written after the published description of the format. Clauses are lists of signed DIMACS numbers. A line adds a clause
that follows by unit propagation from the clauses at hand, or deletes one clause that has exactly the literals named. (The
format also allows additions that only preserve satisfiability; they are not accepted here.)
-/
namespace Varisat.Spec.Drat

/-- The literals that unit propagation finds to be true when the literals `A` are. -/
inductive Forced (D : List (List Int)) (A : Int → Prop) : Int → Prop
  | start {l : Int} : A l → Forced D A l
  | unit {c : List Int} {l : Int} : c ∈ D → l ∈ c → (∀ m ∈ c, m ≠ l → Forced D A (-m)) → Forced D A l

/-- Unit propagation on the negation of the clause makes all literals of a clause false. -/
def Rup (D : List (List Int)) (c : List Int) : Prop := ∃ d ∈ D, ∀ m ∈ d, Forced D (fun l => -l ∈ c) (-m)

/-- The same literals. -/
def same (c d : List Int) : Bool := c.all (d.contains ·) && d.all (c.contains ·)

/-- The clauses after a line: `true` is an addition. -/
def step (D : List (List Int)) (line : Bool × List Int) : List (List Int) :=
  if line.1 then line.2 :: D else D.eraseP (same line.2)

/-- The line can be accepted. -/
def Ok (D : List (List Int)) (line : Bool × List Int) : Prop :=
  if line.1 then Rup D line.2 else ∃ d ∈ D, same line.2 d = true

/-- All lines are accepted, one after the other. -/
def Valid : List (List Int) → List (Bool × List Int) → Prop
  | _, [] => True
  | D, line :: lines => Ok D line ∧ Valid (step D line) lines

/-- The clauses after all lines. -/
def after (D : List (List Int)) (lines : List (Bool × List Int)) : List (List Int) := lines.foldl step D

/-- A literal holds in an assignment of the variables. -/
def holds (τ : Nat → Prop) (x : Int) : Prop := if 0 < x then τ x.natAbs else ¬ τ x.natAbs

/-- An assignment satisfies all clauses. -/
def Sat (τ : Nat → Prop) (D : List (List Int)) : Prop := ∀ c ∈ D, ∃ x ∈ c, holds τ x

/-- A refutation of the formula `D`. -/
def Refutation (D : List (List Int)) (lines : List (Bool × List Int)) : Prop := Valid D lines ∧ Rup (after D lines) []

end Varisat.Spec.Drat
