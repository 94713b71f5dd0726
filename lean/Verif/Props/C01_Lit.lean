import Verif.Proof.Lit
import Mathlib.Data.Nat.Bitwise
/-!
# C01: literal encoding is lossless
-/
namespace Varisat.C01

/-- A literal built from a variable and polarity reports back exactly those. -/
theorem from_var_lossless (i : Nat) (p : Bool) :
    (Lit.mk' i p).var = i ∧ (Lit.mk' i p).isNeg = !p := by simp

example : (Lit.mk' (2 ^ 28 - 1) false).var = 2 ^ 28 - 1 ∧ (Lit.mk' 5 true).code = 10 := by decide

/-- Reading back the parts and rebuilding gives the literal: no two (variable, polarity) pairs
share a code, and every code is used. -/
theorem parts_lossless (l : Lit) : Lit.mk' l.var (!l.isNeg) = l := Lit.mk'_var_neg l

/-- DIMACS number to literal and back, for every nonzero number. -/
theorem dimacs_roundtrip (n : Int) (h : n ≠ 0) : (Lit.fromDimacs n).toDimacs = n := by
  unfold Lit.fromDimacs Lit.toDimacs
  simp only [Lit.isNeg_mk', Lit.var_mk']
  by_cases hp : n > 0
  · simp [hp]; omega
  · simp [hp]; omega

example : (Lit.fromDimacs (-7)).toDimacs = -7 ∧ (Lit.fromDimacs (-7)) = ⟨13⟩ := by decide

/-- Literal to DIMACS number and back. -/
theorem dimacs_roundtrip' (l : Lit) : Lit.fromDimacs l.toDimacs = l := by
  apply Lit.ext_var_neg <;> unfold Lit.fromDimacs Lit.toDimacs <;> cases h : l.isNeg <;> simp <;> omega

/-- Supported literals correspond exactly to the nonzero DIMACS numbers of magnitude ≤ 2^28. -/
theorem dimacs_range (l : Lit) :
    l.var < maxVarCount ↔ (l.toDimacs ≠ 0 ∧ l.toDimacs.natAbs ≤ 2 ^ 28) := by
  rw [maxVarCount_eq]
  unfold Lit.toDimacs; cases l.isNeg <;> simp <;> omega

/-- Negation is an involution that changes the sign and only the sign, and flips the truth
value. -/
theorem neg_spec (l : Lit) :
    l.neg.neg = l ∧ l.neg.var = l.var ∧ l.neg.isNeg = !l.isNeg ∧
    l.neg.toDimacs = - l.toDimacs ∧ ∀ a, l.neg.holds a ↔ ¬ l.holds a := by
  refine ⟨by simp, by simp, by simp, ?_, fun a => by simp⟩
  unfold Lit.toDimacs; cases h : l.isNeg <;> simp [h]

/-- Xor with a `bool` negates exactly when the `bool` is true. -/
theorem xor_spec (l : Lit) (b : Bool) :
    (l.xor b).var = l.var ∧ (l.xor b).isNeg = (l.isNeg ^^ b) := by
  unfold Lit.xor; cases b <;> simp

/-- `map_var` replaces the variable and keeps the polarity. -/
theorem map_var_spec (l : Lit) (f : Nat → Nat) :
    (l.mapVar f).var = f l.var ∧ (l.mapVar f).isNeg = l.isNeg := by
  unfold Lit.mapVar; simp

/-- The largest supported index is 2^28 - 1. -/
theorem max_var_value : maxVar32.toNat = 2 ^ 28 - 1 ∧ maxVarCount = 2 ^ 28 := by decide

/-- On the real 32-bit representation nothing is lost for supported variables: packing and
unpacking agree with the unbounded functions. -/
theorem word_level (i : BitVec 32) (p : Bool) (h : i ≤ maxVar32) :
    (litFromIdx32 i p).toNat = (Lit.mk' i.toNat p).code ∧
    litVar32 (litFromIdx32 i p) = i ∧
    litIsNeg32 (litFromIdx32 i p) = !p := by
  have hm : i.toNat ≤ 2 ^ 28 - 1 := by
    have := BitVec.le_def.1 h
    rwa [max_var_value.1] at this
  have h1 : (litFromIdx32 i p).toNat = 2 * i.toNat + (if p then 0 else 1) := by
    unfold litFromIdx32
    rw [BitVec.toNat_or, BitVec.toNat_shiftLeft, Nat.shiftLeft_eq]
    have e : i.toNat * 2 ^ 1 % 2 ^ 32 = i.toNat * 2 ^ 1 := Nat.mod_eq_of_lt (by omega)
    rw [e, ← Nat.shiftLeft_eq]
    cases p
    · have : (1#32).toNat = 1 := rfl
      rw [if_neg (by simp), this, ← Nat.shiftLeft_add_eq_or_of_lt (by decide : 1 < 2 ^ 1)]
      simp [Nat.shiftLeft_eq]; omega
    · simp [Nat.shiftLeft_eq]; omega
  refine ⟨h1, ?_, ?_⟩
  · apply BitVec.eq_of_toNat_eq
    unfold litVar32
    rw [BitVec.toNat_ushiftRight, h1, Nat.shiftRight_eq_div_pow]
    cases p <;> simp <;> omega
  · unfold litIsNeg32
    have : ((litFromIdx32 i p) &&& 1#32).toNat = if p then 0 else 1 := by
      rw [BitVec.toNat_and, h1]
      have : (1#32).toNat = 1 := rfl
      rw [this, Nat.and_one_is_mod]
      cases p <;> simp <;> omega
    cases p
    · simp only [Bool.not_false, bne_iff_ne, ne_eq]
      intro hc; rw [hc] at this; simp at this
    · simp only [Bool.not_true, bne_eq_false_iff_eq]
      exact BitVec.eq_of_toNat_eq (by rw [this]; rfl)

example : (5#32 ≤ maxVar32) ∧ maxVar32 ≤ maxVar32 := by decide

/-- Word-level negation agrees with the unbounded one for every code. -/
theorem word_level_not (c : BitVec 32) :
    (litNot32 c).toNat = (Lit.mk c.toNat).neg.code ∧ litXor32 c true = litNot32 c ∧
    litXor32 c false = c := by
  refine ⟨?_, rfl, by simp [litXor32]⟩
  unfold litNot32 Lit.neg
  rw [BitVec.toNat_xor]
  have : (1#32).toNat = 1 := rfl
  rw [this]; simp only
  split
  · rw [Nat.xor_one_of_even]; exact Nat.even_iff.2 ‹_›
  · rw [Nat.xor_one_of_odd]; exact Nat.odd_iff.2 (by omega)

end Varisat.C01
