import Verif.Model.Checker
import Verif.Model.Dimacs
/-!
# Specification: the lines that show a transcript

One line for each maximal run of steps of the same kind that only add clauses or change variables, with their number, and
one line for every other step.
-/
namespace Varisat.Spec.TranscriptText
open Checker (TranscriptStep)

/-- The text before and after the number of steps, for steps that are counted. -/
def counted : TranscriptStep → Option (String × String)
  | .addClause _ => some ("ADD ", " CLAUSES ")
  | .witnessVar _ => some ("WITNESS ", " VARIABLES ")
  | .sampleVar _ => some ("SAMPLE ", " VARIABLES ")
  | .hideVar _ => some ("HIDE ", " VARIABLES ")
  | .observeInternalVar _ => some ("OBSERVE ", " INTERNAL VARIABLES ")
  | _ => none

/-- The text for `n` steps like the given one. -/
def text (n : Nat) (t : TranscriptStep) : Bytes :=
  match counted t with
  | some (a, b) => ascii a ++ decNat n ++ ascii b
  | none => match t with
    | .model _ => ascii "SAT"
    | .assume a => ascii "ASSUME " ++ decNat a.length ++ ascii " LITERALS"
    | .failedAssumptions c => ascii "UNSAT WITH " ++ decNat c.length ++ ascii " ASSUMPTIONS"
    | _ => ascii "UNSAT"

/-- The runs of a transcript with their lengths. -/
def runs : List TranscriptStep → List (TranscriptStep × Nat)
  | [] => []
  | t :: ts =>
    match runs ts with
    | [] => [(t, 1)]
    | (u, n) :: rest => if (counted t).isSome ∧ counted t = counted u then (t, n + 1) :: rest else (t, 1) :: (u, n) :: rest

/-- The runs that are followed by something or are not counted. -/
def ended : List (TranscriptStep × Nat) → List (TranscriptStep × Nat)
  | [] => []
  | [r] => if (counted r.1).isSome then [] else [r]
  | r :: s :: rest => r :: ended (s :: rest)

/-- The lines for a transcript. -/
def lines (ts : List TranscriptStep) : List Bytes := (ended (runs ts)).map fun r => text r.2 r.1

end Varisat.Spec.TranscriptText
