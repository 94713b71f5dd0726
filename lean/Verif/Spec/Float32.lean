import Mathlib.Data.Nat.Find
/-!
# Specification: non-negative `f32` numbers

IEEE 754 binary32 with rounding to nearest, ties to even. A number that is not negative is given by its bit pattern, so that the
order of the numbers is that of the patterns.
-/
namespace Varisat.Flt

/-- The pattern of infinity. Smaller patterns are finite numbers. -/
def inf : Nat := 0x7F800000

/-- The number with a pattern, in units of `2 ^ -149` (the smallest positive number): 8 bits of exponent and 23 bits of mantissa. For
infinity it is `2 ^ 128`, the number that would be next. -/
def value (n : Nat) : Nat := if n < 2 ^ 23 then n else (2 ^ 23 + n % 2 ^ 23) * 2 ^ (n / 2 ^ 23 - 1)

/-- `a / b` is above the middle between the pattern `n` and the one before, or in the middle and `n` is even. -/
def Reaches (a b n : Nat) : Prop :=
  (value (n - 1) + value n) * b < 2 * a ∨ (value (n - 1) + value n) * b = 2 * a ∧ n % 2 = 0

instance (a b n : Nat) : Decidable (Reaches a b n) := inferInstanceAs (Decidable (_ ∨ _))

/-- The pattern of `a / b` units, rounded. -/
def round (a b : Nat) : Nat := Nat.findGreatest (Reaches a b) inf

/-- Patterns. Infinity also stands for numbers that are not numbers. -/
abbrev F := Fin (inf + 1)

/-- Rounded results. -/
def toF (a b : Nat) : F := ⟨round a b, Nat.lt_succ_of_le (Nat.findGreatest_le _)⟩

/-- `x` is a finite number. -/
def Finite (x : F) : Prop := x.val < inf

instance (x : F) : Decidable (Finite x) := inferInstanceAs (Decidable (_ < _))

/-- `x + y` -/
def add (x y : F) : F := if Finite x ∧ Finite y then toF (value x + value y) 1 else ⟨inf, by decide⟩

/-- `x * y` -/
def mul (x y : F) : F := if Finite x ∧ Finite y then toF (value x * value y) (2 ^ 149) else ⟨inf, by decide⟩

/-- `1.0 / x` -/
def recip (x : F) : F := if Finite x ∧ x.val ≠ 0 then toF (2 ^ 298) (value x) else ⟨inf, by decide⟩

/-- `0.0` -/
def zero : F := ⟨0, by decide⟩

/-- `1.0` -/
def one : F := ⟨0x3F800000, by decide⟩

end Varisat.Flt
