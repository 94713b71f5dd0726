import Verif.Model.Lit
/-!
# Model: `varisat/src/prop/{assignment,graph}.rs` (assignment, trail and implication graph)

Simplifications.
* A `Vec` indexed by variable is a function; index checks are not modelled (that all variables used
  are below the variable count is an invariant proved of the model).
* `LitIdx` counters (levels, depths) are natural numbers; the depth `LitIdx::max_value()`, the mark of
  a removed unit, is `none`.
* `fast_option_eq` (a transmute) is equality.
-/
namespace Varisat.Solver

/-- Why an operation of the model stopped without a result. -/
inductive Stop
  /-- a Rust panic -/
  | panic
  /-- the bound on the number of loop rounds was exhausted (a limit of the model, not of the code) -/
  | fuel
deriving DecidableEq, Repr

/-- Functional update, `v[i] = b`. -/
def put {ι β : Type} [DecidableEq ι] (f : ι → β) (i : ι) (b : β) : ι → β :=
  fun j => if j = i then b else f j

/-- `Reason`, `graph.rs:14-18`. -/
inductive Reason
  | unit | binary (lit : Lit) | long (cref : Nat)
deriving DecidableEq, Repr

/-- `Conflict`, `graph.rs:43-46`. -/
inductive Conflict
  | binary (a b : Lit) | long (cref : Nat)
deriving DecidableEq, Repr

/-- `ImplNode`, `graph.rs:64-70`; the default is that of `set_var_count`, `graph.rs:85-94`. -/
structure Node where
  reason : Reason := .unit
  level : Nat := 0
  depth : Option Nat := some 0
deriving DecidableEq, Repr

/-- `Assignment` (`assignment.rs:15-18`), `Trail` (`assignment.rs:83-92`) and `ImplGraph`
(`graph.rs:78-81`). -/
structure Pt where
  value : Nat → Option Bool := fun _ => none
  last : Nat → Bool := fun _ => false
  trail : List Lit := []
  qhead : Nat := 0
  decisions : List Nat := []
  unitsRemoved : Nat := 0
  node : Nat → Node := fun _ => {}

namespace Pt

/-- `lit_value`, `assignment.rs:51-53`. -/
def litValue (p : Pt) (l : Lit) : Option Bool := (p.value l.var).map (fun b => b ^^ l.isNeg)

/-- `lit_is_true`, `assignment.rs:55-57`. -/
def isTrue (p : Pt) (l : Lit) : Bool := p.value l.var == some (!l.isNeg)

/-- `lit_is_false`, `assignment.rs:59-61`. -/
def isFalse (p : Pt) (l : Lit) : Bool := p.value l.var == some l.isNeg

/-- `lit_is_unk`, `assignment.rs:63-65`. -/
def isUnk (p : Pt) (l : Lit) : Bool := p.value l.var == none

/-- `current_level`, `assignment.rs:138-140`. -/
def curLevel (p : Pt) : Nat := p.decisions.length

/-- `ImplGraph::level`, `graph.rs:106-108`. -/
def level (p : Pt) (v : Nat) : Nat := (p.node v).level

/-- `ImplGraph::reason`, `graph.rs:99-101`. -/
def reason (p : Pt) (v : Nat) : Reason := (p.node v).reason

/-- `new_decision_level`, `assignment.rs:133-135`. -/
def newLevel (p : Pt) : Pt := { p with decisions := p.decisions ++ [p.trail.length] }

/-- `enqueue_assignment`, `assignment.rs:161-179` (without the `debug_assert!`, which is proved to
hold at each call). -/
def enqueue (p : Pt) (lit : Lit) (reason : Reason) : Pt :=
  { p with
    value := put p.value lit.var (some (!lit.isNeg))
    trail := p.trail ++ [lit]
    node := put p.node lit.var
      { reason := reason, level := p.decisions.length, depth := some (p.trail.length + 1) } }

/-- Unassigning one literal, `assignment.rs:204-206`. -/
def unassign (p : Pt) (lit : Lit) : Pt :=
  { p with
    last := put p.last lit.var (p.value lit.var == some true)
    value := put p.value lit.var none }

/-- `backtrack` without the decision heuristic, `assignment.rs:192-208`: the new state and the
literals removed from the trail, in trail order. -/
def backtrack (p : Pt) (level : Nat) : Pt × List Lit :=
  match p.decisions[level]? with
  | none => (p, [])
  | some newLen =>
    let removed := p.trail.drop newLen
    let p := { p with qhead := newLen, decisions := p.decisions.take level }
    let p := removed.foldl unassign p
    ({ p with trail := p.trail.take newLen }, removed)

/-- `update_removed_unit`, `graph.rs:125-129`. -/
def updateRemovedUnit (p : Pt) (v : Nat) : Pt :=
  { p with node := put p.node v { p.node v with reason := .unit, depth := none } }

/-- `is_removed_unit`, `graph.rs:131-133`. -/
def isRemovedUnit (p : Pt) (v : Nat) : Bool := (p.node v).depth == none

/-- `Trail::clear`, `assignment.rs:123-128`; `none` is the failing `assert!`. -/
def clear (p : Pt) : Option Pt :=
  if p.decisions = [] then
    some { p with unitsRemoved := p.unitsRemoved + p.trail.length, trail := [], qhead := 0 }
  else none

/-- `top_level_assignment_count`, `assignment.rs:143-149`. -/
def topLevelCount (p : Pt) : Nat := p.decisions[0]?.getD p.trail.length + p.unitsRemoved

/-- `resurrect_unit`, `unit_simplify.rs:70-82`. -/
def resurrect (p : Pt) (lit : Lit) : Pt :=
  if p.isRemovedUnit lit.var then
    { p with value := put p.value lit.var none }.enqueue lit .unit
  else p

end Pt
end Varisat.Solver
