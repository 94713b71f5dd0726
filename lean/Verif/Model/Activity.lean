import Verif.Spec.Float32
import Verif.Model.Vsids
import Mathlib.Order.Fin.Basic
/-!
# `varisat/src/decision/vsids.rs` and `varisat/src/clause/activity.rs` with their numbers

The heap of `Model/Vsids` with the arithmetic of `f32`, and the activities of clauses. The arithmetic is that of `Spec/Float32`.
-/
namespace Varisat.Activity
open Flt (F)

/-- `rescale_limit`, `vsids.rs:61-63` and `activity.rs:41-43`: `f32::MAX / 16.0`. The largest finite number has the pattern `7F7FFFFF`;
dividing by 16 lowers the exponent by 4. -/
def limit : F := ⟨0x7D7FFFFF, by decide⟩

/-- `1.0 / rescale_limit()`, `vsids.rs:97` and `activity.rs:77`. -/
def rescaleFactor : F := Flt.recip limit

/-- The assertions of `set_decay`, `vsids.rs:67-68` and `activity.rs:34-35`: below 1 and above 1/16. -/
def allowed (decay : F) : Bool := decay.val < 0x3F800000 && 0x3D800000 < decay.val

/-- The operations of `vsids.rs:73-102`, for a value of `inv_decay`. -/
def arith (invDecay : F) : Arith F where
  zero := Flt.zero
  one := Flt.one
  add := Flt.add
  grow := fun x => Flt.mul x invDecay
  shrink := fun x => Flt.mul x rescaleFactor
  big := fun x => decide (limit ≤ x)

/-- A call of the public interface of `Vsids`. -/
inductive Call
  | setDecay (decay : F)
  | op (o : Vsids.Op)

/-- `Vsids` with its field `inv_decay`. -/
structure Heap where
  vsids : Vsids F
  invDecay : F

/-- The default of `vsids_decay`: 0.95, see `Model/Config`. -/
def vsidsDecay : F := ⟨0x3F733333, by decide⟩

/-- The default of `clause_activity_decay`: 0.999. -/
def clauseDecay : F := ⟨0x3F7FBE77, by decide⟩

/-- `Default`, `vsids.rs:41-51`. -/
def Heap.new : Heap := ⟨Vsids.new (arith (Flt.recip vsidsDecay)), Flt.recip vsidsDecay⟩

/-- One call; `none` is a panic. `set_decay`, `vsids.rs:66-70`. -/
def Heap.call (h : Heap) : Call → Option (Option Nat × Heap)
  | .setDecay d => if allowed d then some (none, { h with invDecay := Flt.recip d }) else none
  | .op o => (h.vsids.op (arith h.invDecay) o).map fun r => (r.1, { h with vsids := r.2 })

/-- A sequence of calls, with their results. -/
def Heap.calls (h : Heap) : List Call → Option (List (Option Nat) × Heap)
  | [] => some ([], h)
  | c :: cs => do
    let (r, h) ← h.call c
    let (rs, h) ← h.calls cs
    pure (r :: rs, h)

/-- `ClauseActivity`, `activity.rs:15-20`, with the activities that are stored in the headers of the clauses in `ClauseDb::clauses` that
are not deleted, `header.rs:129-138`. Those of deleted clauses are left out: they are not used again. -/
structure Clauses where
  activity : Nat → Option F
  bump : F
  invDecay : F

namespace Clauses

/-- `Default`, `activity.rs:22-29`. -/
def new : Clauses := ⟨fun _ => none, Flt.one, Flt.recip clauseDecay⟩

/-- `rescale_clause_activities`, `activity.rs:69-92`. -/
def rescale (s : Clauses) : Clauses :=
  { s with
    activity := fun c => (s.activity c).map fun x => Flt.mul x rescaleFactor
    bump := Flt.mul s.bump rescaleFactor }

/-- What changes activities: a new clause (with the activity 0.0 of a new header), a deleted clause, `bump_clause_activity`,
`decay_clause_activities` and `set_decay`. -/
inductive Op
  | add (c : Nat) | delete (c : Nat) | bump (c : Nat) | decay | setDecay (decay : F)

/-- One operation; `none` is a panic, or a bump of a clause that is not there. `activity.rs:33-37`, `46-66` and `95-108`. -/
def step (s : Clauses) : Op → Option Clauses
  | .add c => some { s with activity := fun d => if d = c then some Flt.zero else s.activity d }
  | .delete c => some { s with activity := fun d => if d = c then none else s.activity d }
  | .bump c =>
    match s.activity c with
    | none => none
    | some x =>
      let activity := Flt.add x s.bump
      let s := { s with activity := fun d => if d = c then some activity else s.activity d }
      some (if limit < activity then s.rescale else s)
  | .decay =>
    let s := { s with bump := Flt.mul s.bump s.invDecay }
    some (if limit ≤ s.bump then s.rescale else s)
  | .setDecay d => if allowed d then some { s with invDecay := Flt.recip d } else none

/-- A sequence of operations. -/
def steps (s : Clauses) : List Op → Option Clauses
  | [] => some s
  | o :: os => do
    let s ← s.step o
    s.steps os

end Clauses

end Varisat.Activity
