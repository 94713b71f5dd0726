import Verif.Model.Bytes
/-!
# Specification: UTF-8 and white space

Decoding with replacement of ill-formed parts, as in chapter 3.9 of the Unicode standard (tables 3-7 and 3-8) and in the
documentation of `String::from_utf8_lossy`, and the property `White_Space` of the Unicode character database.
-/
namespace Varisat.Spec.Utf8

/-- For the first byte of a character: the number of further bytes, the range of the next byte and the upper bits. -/
def lead (b : Nat) : Option (Nat × Nat × Nat × Nat) :=
  if 0xC2 ≤ b ∧ b ≤ 0xDF then some (1, 0x80, 0xBF, b % 32)
  else if b = 0xE0 then some (2, 0xA0, 0xBF, b % 16)
  else if b = 0xED then some (2, 0x80, 0x9F, b % 16)
  else if 0xE1 ≤ b ∧ b ≤ 0xEF then some (2, 0x80, 0xBF, b % 16)
  else if b = 0xF0 then some (3, 0x90, 0xBF, b % 8)
  else if 0xF1 ≤ b ∧ b ≤ 0xF3 then some (3, 0x80, 0xBF, b % 8)
  else if b = 0xF4 then some (3, 0x80, 0x8F, b % 8)
  else none

/-- The character that takes the place of ill-formed bytes. -/
def replacement : Nat := 0xFFFD

/-- Further bytes of a character: its code and the number of bytes used. -/
def further : (n lo hi acc : Nat) → Bytes → Nat × Nat
  | 0, _, _, acc, _ => (acc, 0)
  | n + 1, lo, hi, acc, b :: bs =>
    if lo ≤ b.toNat ∧ b.toNat ≤ hi then
      let r := further n 0x80 0xBF (acc * 64 + b.toNat % 64) bs
      (r.1, r.2 + 1)
    else (replacement, 0)
  | _ + 1, _, _, _, [] => (replacement, 0)

/-- A character from its first byte and what follows: its code and the number of further bytes used. -/
def char (b : UInt8) (bs : Bytes) : Nat × Nat :=
  if b.toNat < 0x80 then (b.toNat, 0)
  else match lead b.toNat with
    | some (n, lo, hi, acc) => further n lo hi acc bs
    | none => (replacement, 0)

/-- The characters of a byte string. -/
def decode : Bytes → List Nat
  | [] => []
  | b :: bs => (char b bs).1 :: decode (bs.drop (char b bs).2)
termination_by bs => bs.length
decreasing_by simp only [List.length_drop, List.length_cons]; omega

/-- `White_Space`. -/
def white (c : Nat) : Bool :=
  (9 ≤ c && c ≤ 13) || c == 0x20 || c == 0x85 || c == 0xA0 || c == 0x1680 || (0x2000 ≤ c && c ≤ 0x200A) ||
    c == 0x2028 || c == 0x2029 || c == 0x202F || c == 0x205F || c == 0x3000

/-- Tests: two, three and four bytes, and ill-formed strings. -/
example : decode (ascii "a") = [97] ∧ decode [0xC3, 0xA9, 0xE2, 0x80, 0x83, 0xF0, 0x9F, 0x92, 0xA9, 33] = [0xE9, 0x2003, 0x1F4A9, 33] ∧
    decode [0x61, 0xF1, 0x80, 0x80, 0xE1, 0x80, 0xC2, 0x62, 0x80, 0x63, 0x80, 0xBF, 0x64] =
      [0x61, 0xFFFD, 0xFFFD, 0xFFFD, 0x62, 0xFFFD, 0x63, 0xFFFD, 0xFFFD, 0x64] ∧
    decode [0xC0, 0xAF, 0xED, 0xA0, 0x80, 0xF4, 0x90, 0xE2] = [0xFFFD, 0xFFFD, 0xFFFD, 0xFFFD, 0xFFFD, 0xFFFD, 0xFFFD, 0xFFFD] := by
  decide +kernel

end Varisat.Spec.Utf8
