import Verif.Spec.Api
/-!
# Specification: which calls of the solver are allowed

The sampling mode of a variable decides how it may be used: a clause or an assumption may not mention a
witness variable (`variables.rs:236-240`), and the mode of an assumed variable may not be changed
(`variables.rs:410-412`). Both are stated in terms of the calls made so far.
-/
namespace Varisat.Api

/-- What the calls made so far say about the user variables. -/
structure Marks where
  /-- the witness variables -/
  witness : List Nat := []
  /-- the variables of the current assumptions -/
  now : List Nat := []
  /-- the variables that were assumed during an earlier call of `solve` -/
  old : List Nat := []

/-- The effect of a call with its result. -/
def Marks.after (m : Marks) : Call × List Nat → Marks
  | (.witnessVar u, _) => { m with witness := u :: m.witness }
  | (.sampleVar u, _) => { m with witness := m.witness.filter (· ≠ u) }
  | (.hideVar u, _) =>
    { m with witness := m.witness.filter (· ≠ u), old := m.old.filter (· ≠ u) }
  | (.observe, us) => { m with witness := us ++ m.witness }
  | (.assume ls, _) => { m with now := ls.map Lit.var }
  | (.solve, _) => { m with old := m.now ++ m.old }
  | (.addClause _, _) => m
  | (.newVar, _) => m

/-- The marks after a history. -/
def marks (h : Hist) : Marks := h.foldl Marks.after {}

/-- The rules for the use of variables. -/
def Allowed (m : Marks) : Call → Prop
  | .addClause c => ∀ l ∈ c, l.var ∉ m.witness
  | .assume ls => ∀ l ∈ ls, l.var ∉ m.witness
  | .witnessVar u => u ∉ m.now
  | .sampleVar u => u ∉ m.now
  | .hideVar u => u ∉ m.now
  | _ => True

instance (m : Marks) (c : Call) : Decidable (Allowed m c) := by
  cases c <;> unfold Allowed <;> infer_instance

/-- The call changes the mode of this variable. -/
def Call.modeOf : Call → Option Nat
  | .witnessVar u => some u
  | .sampleVar u => some u
  | .hideVar u => some u
  | _ => none

end Varisat.Api
