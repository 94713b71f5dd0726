import Verif.Spec.Rup
import Verif.Model.Checker
/-!
An independent reading of the steps handed to proof processors (`varisat-checker/src/processing.rs:53-115`
documents them): a map from ids to live clauses, as an LRAT checker would maintain it.
-/
namespace Varisat.Replay
open Checker (CheckedStep)

structure Db where
  /-- clauses that may be used, by id -/
  live : Nat → Option (List Lit) := fun _ => none
  /-- all ids seen so far are smaller -/
  next : Nat := 0
  assumed : List Lit := []

def set (f : Nat → Option (List Lit)) (i : Nat) (x : Option (List Lit)) : Nat → Option (List Lit) :=
  fun j => if j = i then x else f j

/-- The ids name live clauses which, with the literals `known` true, form a unit propagation
refutation. -/
def Refutes (live : Nat → Option (List Lit)) (known : List Lit) (ids : List Nat) : Prop :=
  ∃ cls, List.Forall₂ (fun i c => live i = some c) ids cls ∧ RupChain Lit.neg known cls

/-- One step. `strict` asks for the justification of deletions too. -/
inductive Step (strict : Prop) : Db → CheckedStep → Db → Prop
  | userVar (d v u) : Step strict d (.userVar v u) d
  | add (d id c) (hid : d.next ≤ id) : Step strict d (.addClause id c) { d with
      live := set d.live id (some c)
      next := id + 1 }
  | dup (d id same c) (hid : d.next ≤ id) (hl : d.live same = some c) :
      Step strict d (.duplicatedClause id same c) { d with next := id + 1 }
  | taut (d id) (c : List Lit) (hid : d.next ≤ id) (ht : ∃ l ∈ c, l.neg ∈ c) :
      Step strict d (.tautologicalClause id c) { d with next := id + 1 }
  | rup (d id red c ps) (hid : d.next ≤ id) (hr : Refutes d.live (c.map Lit.neg) ps) :
      Step strict d (.atClause id red c ps) { d with
        live := set d.live id (some c)
        next := id + 1 }
  | del (d id c) (hl : d.live id = some c) :
      Step strict d (.deleteClause id c) { d with live := set d.live id none }
  | delAt (d id keep c ps) (hl : d.live id = some c)
      (hr : strict → id ∉ ps ∧ Refutes d.live (c.map Lit.neg) ps) :
      Step strict d (.deleteAtClause id keep c ps) { d with
        live := if keep then d.live else set d.live id none }
  | delRat (d id keep) (c : List Lit) (pivot : Lit) (hl : d.live id = some c) (hp : pivot ∈ c)
      (hno : ∀ i e, d.live i = some e → 2 ≤ e.length → pivot ∉ e ∧ pivot.neg ∉ e) :
      Step strict d (.deleteRatClause id keep c pivot) { d with live := set d.live id none }
  | irred (d id c) (hl : d.live id = some c) : Step strict d (.makeIrredundant id c) d
  | model (d a) : Step strict d (.model a) d
  | assume (d a) : Step strict d (.assumptions a) { d with assumed := a }
  | failed (d) (core : List Lit) (ps) (hs : ∀ l ∈ core, l ∈ d.assumed)
      (hr : (∃ l ∈ core, l.neg ∈ core) ∨ Refutes d.live core ps) :
      Step strict d (.failedAssumptions core ps) d

/-- A sequence of steps. -/
inductive Run (strict : Prop) : Db → List CheckedStep → Db → Prop
  | nil (d) : Run strict d [] d
  | snoc (d d' d'' ss s) (h : Run strict d ss d') (hs : Step strict d' s d'') :
      Run strict d (ss ++ [s]) d''

end Varisat.Replay
