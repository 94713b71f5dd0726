import Mathlib.Order.Defs.LinearOrder
/-!
# Model: `varisat/src/decision/vsids.rs`

Simplifications.
* Activities are elements of any linear order; the floating point operations are parameters
  (`Arith`), assumed in the theorems to have the properties in `ArithOk`.
* A `Vec` is a function and a length. Every operation checks that its variable is in range (`none`
  is a panic); that no access inside the operations is out of range is part of what is proved
  (`Vsids.WFe`).
* `set_var_count` is only modelled for growing counts.
-/
namespace Varisat

/-- The arithmetic on `f32` used by the heuristic. -/
structure Arith (α : Type) where
  zero : α
  one : α
  add : α → α → α
  /-- `x * inv_decay` -/
  grow : α → α
  /-- `x * (1.0 / rescale_limit())` -/
  shrink : α → α
  /-- `x >= rescale_limit()` -/
  big : α → Bool

variable {α : Type} [LinearOrder α]

/-- `Vsids`, `vsids.rs:28-39`. -/
structure Vsids (α : Type) where
  activity : Nat → α
  /-- Length of `activity` and `position`. -/
  count : Nat
  heap : Nat → Nat
  /-- Length of `heap`. -/
  len : Nat
  position : Nat → Option Nat
  bump : α

namespace Vsids

/-- Functional update. -/
def put {β : Type} (f : Nat → β) (i : Nat) (b : β) : Nat → β := fun j => if j = i then b else f j

/-- `Default`, `vsids.rs:41-51`. -/
def new (ar : Arith α) : Vsids α where
  activity := fun _ => ar.zero
  count := 0
  heap := fun _ => 0
  len := 0
  position := fun _ => none
  bump := ar.one

/-- `set_var_count`, `vsids.rs:55-58`. -/
def setVarCount (ar : Arith α) (s : Vsids α) (count : Nat) : Vsids α :=
  { s with
    activity := fun v => if v < s.count then s.activity v else ar.zero
    position := fun v => if v < s.count then s.position v else none
    count := count }

/-- `rescale`, `vsids.rs:96-102`. -/
def rescale (ar : Arith α) (s : Vsids α) : Vsids α :=
  { s with
    activity := fun v => ar.shrink (s.activity v)
    bump := ar.shrink s.bump }

/-- The four assignments `vsids.rs:147-150` (and `186-189`): `var` at `pos` and `other` at `to`
change places. -/
def move (s : Vsids α) (var pos other to : Nat) : Vsids α :=
  { s with
    position := put (put s.position var (some to)) other (some pos)
    heap := put (put s.heap to var) pos other }

/-- The loop of `sift_up`, `vsids.rs:138-152`. -/
def siftUpLoop (s : Vsids α) (var pos : Nat) : Vsids α :=
  if pos = 0 then s
  else
    let parentPos := (pos - 1) / 2
    let parentVar := s.heap parentPos
    if s.activity parentVar ≥ s.activity var then s
    else siftUpLoop (s.move var pos parentVar parentPos) var parentPos
termination_by pos
decreasing_by omega

/-- `sift_up`, `vsids.rs:136-153`. -/
def siftUp (s : Vsids α) (pos : Nat) : Vsids α := s.siftUpLoop (s.heap pos) pos

/-- One child of the comparison in `sift_down`, `vsids.rs:162-180`. -/
def larger (s : Vsids α) (best : Nat × Nat) (childPos : Nat) : Nat × Nat :=
  if childPos < s.len then
    let childVar := s.heap childPos
    if s.activity best.2 < s.activity childVar then (childPos, childVar) else best
  else best

/-- The loop of `sift_down`, `vsids.rs:158-191`; `fuel` bounds the depth (`len` suffices, the
position grows in each round). -/
def siftDownLoop (fuel : Nat) (s : Vsids α) (var pos : Nat) : Vsids α :=
  match fuel with
  | 0 => s
  | fuel + 1 =>
    let largest := s.larger (pos, var) (pos * 2 + 1)
    let largest := s.larger largest (pos * 2 + 2)
    if largest.1 = pos then s
    else siftDownLoop fuel (s.move var pos largest.2 largest.1) var largest.1

/-- `sift_down`, `vsids.rs:156-192`. -/
def siftDown (s : Vsids α) (pos : Nat) : Vsids α := s.siftDownLoop s.len (s.heap pos) pos

/-- `bump`, `vsids.rs:73-85`. -/
def bumpVar (ar : Arith α) (s : Vsids α) (var : Nat) : Vsids α :=
  let value := ar.add (s.activity var) s.bump
  let s := { s with activity := put s.activity var value }
  let s := if ar.big value then s.rescale ar else s
  match s.position var with
  | some pos => s.siftUp pos
  | none => s

/-- `decay`, `vsids.rs:88-93`. -/
def decay (ar : Arith α) (s : Vsids α) : Vsids α :=
  let s := { s with bump := ar.grow s.bump }
  if ar.big s.bump then s.rescale ar else s

/-- `reset`, `vsids.rs:107-110`; `none` is the failing `assert!`. -/
def reset (ar : Arith α) (s : Vsids α) (var : Nat) : Option (Vsids α) :=
  if (s.position var).isNone then some { s with activity := put s.activity var ar.zero } else none

/-- `self.heap.swap_remove(position)`. -/
def swapRemove (s : Vsids α) (position : Nat) : Vsids α :=
  { s with
    heap := put s.heap position (s.heap (s.len - 1))
    len := s.len - 1 }

/-- `make_unavailable`, `vsids.rs:113-123`. -/
def makeUnavailable (s : Vsids α) (var : Nat) : Vsids α :=
  match s.position var with
  | none => s
  | some position =>
    let s := s.swapRemove position
    let s :=
      if s.len > position then
        let movedVar := s.heap position
        { s with position := put s.position movedVar (some position) }.siftDown position
      else s
    { s with position := put s.position var none }

/-- `make_available`, `vsids.rs:126-133`. -/
def makeAvailable (s : Vsids α) (var : Nat) : Vsids α :=
  if (s.position var).isNone then
    let position := s.len
    { s with
      position := put s.position var (some position)
      heap := put s.heap s.len var
      len := s.len + 1 }.siftUp position
  else s

/-- `next`, `vsids.rs:198-211`. -/
def next (s : Vsids α) : Option Nat × Vsids α :=
  if s.len = 0 then (none, s)
  else
    let var := s.heap 0
    let s := s.swapRemove 0
    let s :=
      if s.len ≠ 0 then
        let topVar := s.heap 0
        { s with position := put s.position topVar (some 0) }.siftDown 0
      else s
    (some var, { s with position := put s.position var none })

/-- A call of the public interface. -/
inductive Op
  | setVarCount (count : Nat) | bump (var : Nat) | decay | reset (var : Nat)
  | makeUnavailable (var : Nat) | makeAvailable (var : Nat) | next
deriving DecidableEq, Repr

/-- The variable a call is about. -/
def Op.var? : Op → Option Nat
  | .bump v | .reset v | .makeUnavailable v | .makeAvailable v => some v
  | _ => none

/-- One call: the result of `next` (`none` for the others) and the new state; `none` is a panic. -/
def op (ar : Arith α) (s : Vsids α) (o : Op) : Option (Option Nat × Vsids α) :=
  if o.var?.any (fun v => decide (s.count ≤ v)) then none
  else match o with
    | .setVarCount n => if n < s.count then none else some (none, s.setVarCount ar n)
    | .bump v => some (none, s.bumpVar ar v)
    | .decay => some (none, s.decay ar)
    | .reset v => (s.reset ar v).map (fun s => (none, s))
    | .makeUnavailable v => some (none, s.makeUnavailable v)
    | .makeAvailable v => some (none, s.makeAvailable v)
    | .next => some s.next

/-- A sequence of calls, with their results; `none` is a panic. -/
def runs (ar : Arith α) (s : Vsids α) : List Op → Option (List (Option Nat) × Vsids α)
  | [] => some ([], s)
  | o :: ops => do
    let (r, s) ← s.op ar o
    let (rs, s) ← s.runs ar ops
    pure (r :: rs, s)

end Vsids
end Varisat
