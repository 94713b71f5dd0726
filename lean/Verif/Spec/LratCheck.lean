import Verif.Spec.Lrat
import Verif.Spec.Drat
/-!
# Specification: checking an LRAT proof

Written after the published description of the format. The clauses of the formula have the ids 0, 1, … in their order. A line
adds a clause under a new id that is larger than all ids before, with hints: the ids of clauses that are unit one after the
other once all literals of the clause are false, the last one being false. Or it deletes clauses by their ids. (The format
also allows additions that only preserve satisfiability; they are not accepted here.)
-/
namespace Varisat.Spec.LratCheck
open Spec.Lrat

structure Db where
  /-- the clauses at hand -/
  clause : Nat → Option (List Int)
  /-- all ids used so far are smaller -/
  next : Nat

/-- The clauses of the formula. -/
def start (F : List (List Int)) : Db := ⟨fun i => F[i]?, F.length⟩

/-- The hints, with the literals `known` true: each clause has exactly one literal that is not false, which is unassigned
and becomes true; all literals of the last clause are false. -/
def Hints (clause : Nat → Option (List Int)) : List Int → List Nat → Prop
  | _, [] => False
  | known, [i] => ∃ c, clause i = some c ∧ ∀ l ∈ c, -l ∈ known
  | known, i :: j :: is => ∃ c, clause i = some c ∧ ∃ l ∈ c, l ∉ known ∧ -l ∉ known ∧ (∀ m ∈ c, m ≠ l → -m ∈ known) ∧
      Hints clause (l :: known) (j :: is)

/-- The event can be accepted. -/
def Ok (d : Db) : Event → Prop
  | .add id lits hints => d.next ≤ id ∧ Hints d.clause (lits.map (- ·)) hints
  | .del id => (d.clause id).isSome

/-- The clauses afterwards. -/
def step (d : Db) : Event → Db
  | .add id lits _ => ⟨fun i => if i = id then some lits else d.clause i, id + 1⟩
  | .del id => ⟨fun i => if i = id then none else d.clause i, d.next⟩

/-- All events are accepted, one after the other. -/
def Valid : Db → List Event → Prop
  | _, [] => True
  | d, e :: es => Ok d e ∧ Valid (step d e) es

/-- The proof derives the empty clause. -/
def Empties (es : List Event) : Prop := ∃ id hints, .add id [] hints ∈ es

/-- Two clauses have only the literal `l` and only its negation. (The empty clause counts as both.) -/
def Clash (F : List (List Int)) : Prop := ∃ l, (∃ c ∈ F, ∀ m ∈ c, m = l) ∧ ∃ c ∈ F, ∀ m ∈ c, m = -l

end Varisat.Spec.LratCheck
