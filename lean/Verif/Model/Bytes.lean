/-!
# Byte strings and decimal output

Models `itoa::write` and `{}` formatting of integers (both documented to print plain decimal
without leading zeros, with a leading `-` for negative numbers).
-/
namespace Varisat

/-- A byte string. -/
abbrev Bytes := List UInt8

/-- Bytes of an ASCII string literal. -/
def ascii (s : String) : Bytes := s.toList.map (fun c => UInt8.ofNat c.toNat)

/-- Decimal digits of a natural number, most significant first (`itoa::write`, `format!("{}")`). -/
def decNat (n : Nat) : Bytes :=
  if n < 10 then [UInt8.ofNat (48 + n)] else decNat (n / 10) ++ [UInt8.ofNat (48 + n % 10)]
termination_by n

/-- Decimal form of an integer. -/
def decInt (n : Int) : Bytes := if n < 0 then 45 :: decNat n.natAbs else decNat n.natAbs

end Varisat
