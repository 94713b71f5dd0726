/-!
# Model: solver configuration (`varisat/src/config.rs`, `varisat-internal-macros/src/lib.rs:79-216`)

`ConfigUpdate` is a derive macro; the definitions below are its expansion for `SolverConfig`. A `f32` is
its 32 bits, compared as the processor does. The values of doc comments are not modelled except as
ranges and defaults.
-/
namespace Varisat.Config

/-- The bits of a `f32` (IEEE 754 binary32). -/
abbrev F32 := BitVec 32

namespace F32

/-- Not a number: all exponent bits set and a mantissa that is not zero. -/
def isNaN (x : F32) : Bool := x &&& 0x7F800000#32 == 0x7F800000#32 && x &&& 0x007FFFFF#32 != 0#32

/-- The integer with the same order: magnitude bits with the sign (both zeros are 0). -/
def key (x : F32) : Int :=
  if x.msb then -((x &&& 0x7FFFFFFF#32).toNat : Int) else ((x &&& 0x7FFFFFFF#32).toNat : Int)

/-- `f32: PartialOrd`, `<`. -/
def lt (x y : F32) : Bool := !x.isNaN && !y.isNaN && decide (x.key < y.key)

/-- `f32: PartialOrd`, `<=`. -/
def le (x y : F32) : Bool := !x.isNaN && !y.isNaN && decide (x.key ≤ y.key)

end F32

/-- `Range<f32>::contains`. -/
def inRange (lo hi x : F32) : Bool := lo.le x && x.lt hi

/-- `RangeFrom<u64>::contains`. -/
def inFrom (lo x : Nat) : Bool := decide (lo ≤ x)

/-- The literal `0.5`. -/
def half : F32 := 0x3F000000#32
/-- The literal `1.0`. -/
def one : F32 := 0x3F800000#32
/-- The constant `1.0 / 16.0`. -/
def sixteenth : F32 := 0x3D800000#32

/-- `SolverConfig`, `config.rs:6-31`. -/
structure SolverConfig where
  vsidsDecay : F32
  clauseActivityDecay : F32
  reduceLocalsInterval : BitVec 64
  reduceMidsInterval : BitVec 64
  lubyRestartIntervalScale : BitVec 64
deriving DecidableEq, Repr

/-- `Default`, derived from the `[default: …]` parts of the comments, `lib.rs:36-76`: 0.95 and 0.999 rounded
to `f32`. -/
def SolverConfig.default : SolverConfig := ⟨0x3F733333#32, 0x3F7FBE77#32, 15000, 10000, 128⟩

/-- `SolverConfigUpdate`, the struct generated at `lib.rs:98-107, 175-180`. -/
structure Update where
  vsidsDecay : Option F32 := none
  clauseActivityDecay : Option F32 := none
  reduceLocalsInterval : Option (BitVec 64) := none
  reduceMidsInterval : Option (BitVec 64) := none
  lubyRestartIntervalScale : Option (BitVec 64) := none
deriving DecidableEq, Repr

/-- The fields, to name the one in the error message. -/
inductive Field
  | vsidsDecay | clauseActivityDecay | reduceLocalsInterval | reduceMidsInterval | lubyRestartIntervalScale
deriving DecidableEq, Repr

/-- One range check, `lib.rs:109-132`. -/
def ensure (f : Field) (contains : α → Bool) : Option α → Except Field Unit
  | none => .ok ()
  | some v => if contains v then .ok () else .error f

/-- `check_ranges`, `lib.rs:109-132`, in the order of the fields. -/
def Update.check (u : Update) : Except Field Unit := do
  ensure .vsidsDecay (inRange half one) u.vsidsDecay
  ensure .clauseActivityDecay (inRange half one) u.clauseActivityDecay
  ensure .reduceLocalsInterval (fun v => inFrom 1 v.toNat) u.reduceLocalsInterval
  ensure .reduceMidsInterval (fun v => inFrom 1 v.toNat) u.reduceMidsInterval
  ensure .lubyRestartIntervalScale (fun v => inFrom 1 v.toNat) u.lubyRestartIntervalScale

/-- `apply_updates`, `lib.rs:134-144`. -/
def Update.set (u : Update) (c : SolverConfig) : SolverConfig where
  vsidsDecay := match u.vsidsDecay with | some v => v | none => c.vsidsDecay
  clauseActivityDecay := match u.clauseActivityDecay with | some v => v | none => c.clauseActivityDecay
  reduceLocalsInterval := match u.reduceLocalsInterval with | some v => v | none => c.reduceLocalsInterval
  reduceMidsInterval := match u.reduceMidsInterval with | some v => v | none => c.reduceMidsInterval
  lubyRestartIntervalScale := match u.lubyRestartIntervalScale with
    | some v => v | none => c.lubyRestartIntervalScale

/-- `apply`, `lib.rs:197-204`: the configuration afterwards and the result. -/
def Update.apply (u : Update) (c : SolverConfig) : SolverConfig × Except Field Unit :=
  match u.check with
  | .error f => (c, .error f)
  | .ok () => (u.set c, .ok ())

/-- `merge`, `lib.rs:146-156, 206-212`. -/
def Update.merge (u v : Update) : Update where
  vsidsDecay := match v.vsidsDecay with | some x => some x | none => u.vsidsDecay
  clauseActivityDecay := match v.clauseActivityDecay with | some x => some x | none => u.clauseActivityDecay
  reduceLocalsInterval := match v.reduceLocalsInterval with | some x => some x | none => u.reduceLocalsInterval
  reduceMidsInterval := match v.reduceMidsInterval with | some x => some x | none => u.reduceMidsInterval
  lubyRestartIntervalScale := match v.lubyRestartIntervalScale with
    | some x => some x | none => u.lubyRestartIntervalScale

/-- The parts of the solver that depend on the configuration (`Vsids::inv_decay`, `ClauseActivity::inv_decay`);
the other fields are read when needed. -/
structure St where
  config : SolverConfig
  vsidsInvDecay : F32
  clauseInvDecay : F32
deriving DecidableEq, Repr

/-- A new solver: `vsids.rs:27-38`, `activity.rs:20-29`. Division is a parameter. -/
def St.new (recip : F32 → F32) : St where
  config := .default
  vsidsInvDecay := recip SolverConfig.default.vsidsDecay
  clauseInvDecay := recip SolverConfig.default.clauseActivityDecay

/-- `set_decay`, `vsids.rs:66-70` and `activity.rs:33-37`; `none` is a failed assertion. -/
def setDecay (recip : F32 → F32) (decay : F32) : Option F32 :=
  if decay.lt one then if sixteenth.lt decay then some (recip decay) else none else none

/-- `Solver::config`, `solver.rs:64-69` with `config_changed`, `context.rs:123-132`; `none` is a panic. -/
def St.configure (recip : F32 → F32) (s : St) (u : Update) : Option (St × Except Field Unit) :=
  match u.apply s.config with
  | (c, .error f) => some ({ s with config := c }, .error f)
  | (c, .ok ()) =>
    match setDecay recip c.vsidsDecay with
    | none => none
    | some v =>
      match setDecay recip c.clauseActivityDecay with
      | none => none
      | some a => some ({ config := c, vsidsInvDecay := v, clauseInvDecay := a }, .ok ())

/-- Calls of `Solver::config` on a new solver, with their results. -/
inductive Ran (recip : F32 → F32) : List (Update × Except Field Unit) → St → Prop
  | new : Ran recip [] (.new recip)
  | call {h s s' u r} : Ran recip h s → s.configure recip u = some (s', r) → Ran recip (h ++ [(u, r)]) s'

end Varisat.Config
