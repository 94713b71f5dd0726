import Verif.Model.Vsids
/-!
# Specification: a priority queue of variables

A set of available variables and an activity for each variable. Only the types `Op` and `Arith` of
the model are used.
-/
namespace Varisat
open Vsids (Op)

namespace Vsids
/-- What is assumed of the arithmetic: adding a bump value does not decrease an activity, scaling
is monotone. -/
structure ArithOk {α : Type} [LinearOrder α] (ar : Arith α) (pos : α → Prop) : Prop where
  one : pos ar.one
  grow : ∀ b, pos b → pos (ar.grow b)
  shrink : ∀ b, pos b → pos (ar.shrink b)
  add : ∀ x b, pos b → x ≤ ar.add x b
  mono : ∀ x y, x ≤ y → ar.shrink x ≤ ar.shrink y

end Vsids

/-- The abstract state. -/
structure Queue (α : Type) where
  avail : Nat → Bool
  activity : Nat → α
  bump : α
  count : Nat

namespace Queue
variable {α : Type} [LinearOrder α]

/-- No variables. -/
def empty (ar : Arith α) : Queue α :=
  { avail := fun _ => false, activity := fun _ => ar.zero, bump := ar.one, count := 0 }

/-- All activities and the bump value are multiplied by the same small number. -/
def scaled (ar : Arith α) (q : Queue α) : Queue α :=
  { q with
    activity := fun v => ar.shrink (q.activity v)
    bump := ar.shrink q.bump }

/-- The state after a call with result `r`. Rescaling happens when the changed value is `big`. -/
def step (ar : Arith α) (q : Queue α) (o : Op) (r : Option Nat) : Queue α :=
  match o with
  | .setVarCount n => { q with
      activity := fun v => if v < q.count then q.activity v else ar.zero
      count := n }
  | .bump v =>
    let q' := { q with
      activity := fun w => if w = v then ar.add (q.activity v) q.bump else q.activity w }
    if ar.big (ar.add (q.activity v) q.bump) then q'.scaled ar else q'
  | .decay =>
    let q' := { q with bump := ar.grow q.bump }
    if ar.big (ar.grow q.bump) then q'.scaled ar else q'
  | .reset v => { q with activity := fun w => if w = v then ar.zero else q.activity w }
  | .makeUnavailable v => { q with avail := fun w => q.avail w && w != v }
  | .makeAvailable v => { q with avail := fun w => q.avail w || w == v }
  | .next => { q with avail := fun w => q.avail w && some w != r }

/-- The calls that are allowed. -/
def Allowed (q : Queue α) : Op → Prop
  | .setVarCount n => q.count ≤ n
  | .bump v | .makeUnavailable v | .makeAvailable v => v < q.count
  | .reset v => v < q.count ∧ q.avail v = false
  | .decay | .next => True

/-- The possible results of a call: `next` returns an available variable if there is one. -/
def Result (q : Queue α) (o : Op) (r : Option Nat) : Prop :=
  if o = .next then
    match r with
    | none => ∀ v, q.avail v = false
    | some v => q.avail v = true
  else r = none

/-- `v` is at least as active as every available variable. -/
def Top (q : Queue α) (v : Nat) : Prop := ∀ w, q.avail w = true → q.activity w ≤ q.activity v

/-- `next` returns a most active variable. -/
def Best (q : Queue α) (o : Op) (r : Option Nat) : Prop :=
  o = .next → ∀ v, r = some v → q.Top v

/-- A removed variable is not available or a most active one. -/
def Tame (q : Queue α) : Op → Prop
  | .makeUnavailable v => q.avail v = false ∨ q.Top v
  | _ => True

/-- Every call of a sequence has property `P`. -/
def All (ar : Arith α) (P : Queue α → Op → Option Nat → Prop) :
    Queue α → List Op → List (Option Nat) → Prop
  | _, [], [] => True
  | q, o :: ops, r :: rs => P q o r ∧ All ar P (q.step ar o r) ops rs
  | _, _, _ => False

/-- The state after a sequence of calls. -/
def after (ar : Arith α) : Queue α → List Op → List (Option Nat) → Queue α
  | q, o :: ops, r :: rs => after ar (q.step ar o r) ops rs
  | q, _, _ => q

end Queue
end Varisat
