import Verif.Model.Checker
import Verif.Model.ProofFormat
import Verif.Spec.Sat
/-!
# Specification: what a transcript says

A reader takes the steps in order, keeps the clauses added and the assumptions made last, and takes every result as a
statement about these.
-/
namespace Varisat.Spec.Transcript
open Checker (TranscriptStep)

/-- The clauses added. -/
def clauses (ts : List TranscriptStep) : List (List Lit) :=
  ts.filterMap fun t => match t with | .addClause c => some c | _ => none

/-- The assumptions made last. -/
def assumed (ts : List TranscriptStep) : List Lit :=
  ts.foldl (fun a t => match t with | .assume b => b | _ => a) []

/-- The statement made by a step that follows the steps `pre`. -/
def Right (pre : List TranscriptStep) : TranscriptStep → Prop
  | .unsat => Unsat (clauses pre)
  | .model m => ∃ a, allHold a m ∧ cnfSat a (clauses pre) ∧ allHold a (assumed pre)
  | .failedAssumptions core => (∀ l ∈ core, l ∈ assumed pre) ∧ UnsatUnder (clauses pre) core
  | _ => True

/-- The transcript itself says that the clauses are contradictory. -/
def SaysUnsat (ts : List TranscriptStep) : Prop := .unsat ∈ ts ∨ [] ∈ clauses ts

/-- The same literals. -/
def sameLits (c d : List Lit) : Prop := ∀ l, l ∈ c ↔ l ∈ d

/-- The steps about assumptions and results. -/
def queries (ts : List TranscriptStep) : List TranscriptStep :=
  ts.filter fun t => match t with | .model _ | .assume _ | .failedAssumptions _ => true | _ => false

/-- The steps of a proof about assumptions and results. -/
def proofQueries (sts : List ProofStep) : List ProofStep :=
  sts.filter fun t => match t with | .model _ | .assumptions _ | .failedAssumptions _ _ => true | _ => false

/-- The transcript step repeats the proof step; literals of hidden variables are left out of models. -/
def Repeats : ProofStep → TranscriptStep → Prop
  | .model a, .model m => ∀ l ∈ m, l ∈ a
  | .assumptions a, .assume b => sameLits a b
  | .failedAssumptions c _, .failedAssumptions d => sameLits c d
  | _, _ => False

end Varisat.Spec.Transcript
