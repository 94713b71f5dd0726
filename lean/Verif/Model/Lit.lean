import Verif.Spec.Sat
/-!
# Model: `varisat-formula/src/lit.rs`
-/
namespace Varisat

/-- `Var::max_count()`, `lit.rs:58-70`: `(u32::MAX >> 4) + 1`. -/
def maxVarCount : Nat := (2 ^ 32 - 1) / 2 ^ 4 + 1

theorem maxVarCount_eq : maxVarCount = 2 ^ 28 := by decide

namespace Lit

/-- `Lit::from_litidx` / `from_var` / `from_index`, `lit.rs:132-170`:
`(index << 1) | !polarity`. -/
def mk' (index : Nat) (polarity : Bool) : Lit := ⟨2 * index + (if polarity then 0 else 1)⟩

/-- `Not for Lit`, `lit.rs:232-241`: `code ^ 1`. -/
def neg (l : Lit) : Lit := ⟨if l.code % 2 = 0 then l.code + 1 else l.code - 1⟩

/-- `BitXor<bool> for Lit`, `lit.rs:243-252`. -/
def xor (l : Lit) (b : Bool) : Lit := if b then l.neg else l

/-- `Lit::from_dimacs`, `lit.rs:177-179` with `Var::from_dimacs`, `lit.rs:26-29`.
Simplification: only used for nonzero numbers (0 is a `debug_assert` failure). -/
def fromDimacs (n : Int) : Lit := mk' (n.natAbs - 1) (decide (n > 0))

/-- `Lit::to_dimacs`, `lit.rs:183-189` with `Var::to_dimacs`, `lit.rs:44-46`. -/
def toDimacs (l : Lit) : Int := if l.isNeg then -(l.var + 1 : Int) else (l.var + 1 : Int)

/-- `Lit::map_var`, `lit.rs:227-229`. -/
def mapVar (l : Lit) (f : Nat → Nat) : Lit := mk' (f l.var) (!l.isNeg)

end Lit

/-! ### The same operations literally on 32-bit words -/

/-- `Lit::from_litidx`, `lit.rs:165-170`, on the `u32` representation. -/
def litFromIdx32 (index : BitVec 32) (polarity : Bool) : BitVec 32 :=
  (index <<< 1) ||| (if polarity then 0#32 else 1#32)
/-- `Lit::var`, `lit.rs:199-203`. -/
def litVar32 (code : BitVec 32) : BitVec 32 := code >>> 1
/-- `Lit::is_negative`, `lit.rs:207-209`. -/
def litIsNeg32 (code : BitVec 32) : Bool := (code &&& 1#32) != 0#32
/-- `Not for Lit`, `lit.rs:232-241`. -/
def litNot32 (code : BitVec 32) : BitVec 32 := code ^^^ 1#32
/-- `BitXor<bool>`, `lit.rs:243-252`. -/
def litXor32 (code : BitVec 32) (b : Bool) : BitVec 32 := code ^^^ (if b then 1#32 else 0#32)
/-- `Var::max_var().index`, `lit.rs:58-63`. -/
def maxVar32 : BitVec 32 := BitVec.allOnes 32 >>> 4

end Varisat
