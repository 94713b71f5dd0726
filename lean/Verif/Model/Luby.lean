/-!
# Model: `varisat/src/schedule/luby.rs`

`u64` as `BitVec 64`; `u += 1` wraps as in a release build (a debug build panics after `2^64`
blocks).
-/
namespace Varisat

/-- `LubySequence`, `luby.rs:6-15`. -/
structure Luby where
  u : BitVec 64 := 1
  v : BitVec 64 := 1
deriving DecidableEq, Repr

/-- `advance`, `luby.rs:19-31`: the result and the new state. -/
def Luby.advance (s : Luby) : BitVec 64 × Luby :=
  (s.v,
    if s.u &&& (-s.u) = s.v then { u := s.u + 1, v := 1 }
    else { s with v := s.v <<< 1 })

/-- The state after `n` calls. -/
def Luby.after (s : Luby) : Nat → Luby
  | 0 => s
  | n + 1 => s.advance.2.after n

/-- The value returned by call number `n`, counted from 0. -/
def Luby.output (n : Nat) : Nat := ((Luby.after {} n).advance.1).toNat

end Varisat
