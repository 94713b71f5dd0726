import Verif.Model.Config
/-!
# Specification: the documented ranges

`config.rs` documents 0.5 ≤ decay < 1 and intervals of at least 1.
-/
namespace Varisat.Config

/-- The number a `f32` stands for, in units of 2⁻¹⁴⁹; `none` for infinities and NaN. -/
def F32.units (x : F32) : Option Int :=
  let n := x.toNat
  let sign : Int := if 2 ^ 31 ≤ n then -1 else 1
  let exponent : Nat := n / 2 ^ 23 % 2 ^ 8
  let mantissa : Nat := n % 2 ^ 23
  if exponent = 255 then none
  else if exponent = 0 then some (sign * mantissa)
  else some (sign * ((2 ^ 23 + mantissa : Nat) * 2 ^ (exponent - 1)))

/-- A decay factor in [0.5, 1). -/
def DecayOk (x : F32) : Prop := ∃ n, x.units = some n ∧ 2 ^ 148 ≤ n ∧ n < 2 ^ 149

/-- A configuration within the documented ranges. -/
def SolverConfig.InRange (c : SolverConfig) : Prop :=
  DecayOk c.vsidsDecay ∧ DecayOk c.clauseActivityDecay ∧ 1 ≤ c.reduceLocalsInterval.toNat ∧
  1 ≤ c.reduceMidsInterval.toNat ∧ 1 ≤ c.lubyRestartIntervalScale.toNat

/-- Every given field is within its documented range. -/
def Update.InRange (u : Update) : Prop :=
  (∀ x, u.vsidsDecay = some x → DecayOk x) ∧ (∀ x, u.clauseActivityDecay = some x → DecayOk x) ∧
  (∀ x, u.reduceLocalsInterval = some x → 1 ≤ x.toNat) ∧ (∀ x, u.reduceMidsInterval = some x → 1 ≤ x.toNat) ∧
  (∀ x, u.lubyRestartIntervalScale = some x → 1 ≤ x.toNat)

/-- `d` is `c` with exactly the given fields replaced. -/
def Update.Sets (u : Update) (c d : SolverConfig) : Prop :=
  d.vsidsDecay = u.vsidsDecay.getD c.vsidsDecay ∧
  d.clauseActivityDecay = u.clauseActivityDecay.getD c.clauseActivityDecay ∧
  d.reduceLocalsInterval = u.reduceLocalsInterval.getD c.reduceLocalsInterval ∧
  d.reduceMidsInterval = u.reduceMidsInterval.getD c.reduceMidsInterval ∧
  d.lubyRestartIntervalScale = u.lubyRestartIntervalScale.getD c.lubyRestartIntervalScale

end Varisat.Config
