import Verif.Model.Vli
import Verif.Model.Lit
/-!
# Model: `varisat-internal-proof/src/{lib,binary_format}.rs` (steps and their binary format)

Simplifications: variables are their indices; `Vec::reserve` (which may abort for an absurd length
field) is not modelled; the only I/O error of a reader is the end of the input.
-/
namespace Varisat

/-- `DeleteClauseProof`, `lib.rs:40-49`. -/
inductive DeleteProof
  | redundant | simplified | satisfied
deriving DecidableEq, Repr

/-- `ProofStep`, `lib.rs:55-130`. -/
inductive ProofStep
  | solverVarName (global : Nat) (solver : Option Nat)
  | userVarName (global : Nat) (user : Option Nat)
  | deleteVar (var : Nat)
  | changeSamplingMode (var : Nat) (sample : Bool)
  | addClause (clause : List Lit)
  | atClause (redundant : Bool) (clause : List Lit) (hashes : List Nat)
  | unitClauses (units : List (Lit × Nat))
  | deleteClause (clause : List Lit) (proof : DeleteProof)
  | changeHashBits (bits : Nat)
  | model (assignment : List Lit)
  | assumptions (assumptions : List Lit)
  | failedAssumptions (core : List Lit) (hashes : List Nat)
  | end_
deriving DecidableEq, Repr

/-- `ProofStep::contains_hashes`, `lib.rs:134-151`. -/
def ProofStep.containsHashes : ProofStep → Bool
  | .atClause .. | .unitClauses .. | .failedAssumptions .. => true
  | _ => false

namespace Fmt
open Vli

/-- `CODE_END`, `binary_format.rs:46`. -/
def codeEnd : Nat := 0x9ac3391f4294c211

/-- `write_literals`, `binary_format.rs:269-275`. -/
def writeLiterals (ls : List Lit) : Bytes :=
  writeU64 ls.length ++ ls.flatMap (fun l => writeU64 l.code)

/-- `write_hashes`, `binary_format.rs:289-295`. -/
def writeHashes (hs : List Nat) : Bytes :=
  writeU64 hs.length ++ hs.flatMap writeU64

/-- `write_unit_clauses`, `binary_format.rs:309-316`. -/
def writeUnits (us : List (Lit × Nat)) : Bytes :=
  writeU64 us.length ++ us.flatMap (fun u => writeU64 u.1.code ++ writeU64 u.2)

/-- `write_step`, `binary_format.rs:49-157`; step codes `binary_format.rs:22-42`. -/
def writeStep : ProofStep → Bytes
  | .solverVarName g (some v) => writeU64 0 ++ writeU64 g ++ writeU64 v
  | .solverVarName g none => writeU64 1 ++ writeU64 g
  | .userVarName g (some v) => writeU64 2 ++ writeU64 g ++ writeU64 v
  | .userVarName g none => writeU64 3 ++ writeU64 g
  | .deleteVar v => writeU64 4 ++ writeU64 v
  | .changeSamplingMode v sample => (if sample then writeU64 5 else writeU64 6) ++ writeU64 v
  | .addClause c => writeU64 15 ++ writeLiterals c
  | .atClause red c hs =>
      (if red then writeU64 7 else writeU64 8) ++ writeLiterals c ++ writeHashes hs
  | .unitClauses us => writeU64 9 ++ writeUnits us
  | .deleteClause c p =>
      (match p with
        | .redundant => writeU64 10
        | .simplified => writeU64 11
        | .satisfied => writeU64 12) ++ writeLiterals c
  | .changeHashBits b => writeU64 13 ++ writeU64 b
  | .model a => writeU64 14 ++ writeLiterals a
  | .assumptions a => writeU64 16 ++ writeLiterals a
  | .failedAssumptions c hs => writeU64 17 ++ writeLiterals c ++ writeHashes hs
  | .end_ => writeU64 codeEnd

/-! ### Parsing -/

/-- Errors of `parse_step`: end of input inside a step (`io::Error`), or an unknown step code
(`binary_format.rs:263`). -/
inductive ParseErr
  | eof | badCode
deriving DecidableEq, Repr

/-- A parser: consumes a prefix of the input. -/
abbrev P (α : Type) := Bytes → Except ParseErr (α × Bytes)

/-- Sequencing with early return on error (`?`). -/
def P.bind {α β : Type} (p : P α) (f : α → P β) : P β := fun bs =>
  match p bs with
  | .ok (a, rest) => f a rest
  | .error e => .error e

def P.pure {α : Type} (a : α) : P α := fun bs => .ok (a, bs)

instance : Monad P where
  pure := P.pure
  bind := P.bind

/-- One `read_u64`. `fill n` is the number of buffered bytes when `n` bytes of input remain; every
read consumes input, so a function of `n` describes any schedule of buffer refills. -/
def rd (fill : Nat → Nat) : P Nat := fun bs =>
  match readU64 (fill bs.length) bs with
  | some r => .ok r
  | none => .error .eof

/-- `Var::from_index(x as usize)`, `lit.rs:33-40` (release build: truncation to `u32`). -/
def varOfU64 (x : Nat) : Nat := x % 2 ^ 32

/-- `Lit::from_code(x as usize)`, `lit.rs:146-150` (release build: truncation to `u32`). -/
def litOfU64 (x : Nat) : Lit := ⟨x % 2 ^ 32⟩

/-- The loop `for _ in 0..len`. -/
def readN {α : Type} (p : P α) : Nat → P (List α)
  | 0 => P.pure []
  | n + 1 => p.bind fun a => (readN p n).bind fun as => P.pure (a :: as)

/-- `read_literals`, `binary_format.rs:278-286`. -/
def readLiterals (fill : Nat → Nat) : P (List Lit) :=
  (rd fill).bind fun len => readN ((rd fill).bind fun x => P.pure (litOfU64 x)) len

/-- `read_hashes`, `binary_format.rs:298-306`. -/
def readHashes (fill : Nat → Nat) : P (List Nat) :=
  (rd fill).bind fun len => readN (rd fill) len

/-- `read_unit_clauses`, `binary_format.rs:319-332`. -/
def readUnits (fill : Nat → Nat) : P (List (Lit × Nat)) :=
  (rd fill).bind fun len =>
    readN ((rd fill).bind fun x => (rd fill).bind fun h => P.pure (litOfU64 x, h)) len

def P.fail {α : Type} (e : ParseErr) : P α := fun _ => .error e

/-- The `match code` of `Parser::parse_step`, `binary_format.rs:169-264`. -/
def parseBody (fill : Nat → Nat) (code : Nat) : P ProofStep :=
  if code = 0 then
    (rd fill).bind fun g => (rd fill).bind fun v =>
      P.pure (.solverVarName (varOfU64 g) (some (varOfU64 v)))
  else if code = 1 then
    (rd fill).bind fun g => P.pure (.solverVarName (varOfU64 g) none)
  else if code = 2 then
    (rd fill).bind fun g => (rd fill).bind fun v =>
      P.pure (.userVarName (varOfU64 g) (some (varOfU64 v)))
  else if code = 3 then
    (rd fill).bind fun g => P.pure (.userVarName (varOfU64 g) none)
  else if code = 4 then
    (rd fill).bind fun v => P.pure (.deleteVar (varOfU64 v))
  else if code = 5 ∨ code = 6 then
    (rd fill).bind fun v => P.pure (.changeSamplingMode (varOfU64 v) (decide (code = 5)))
  else if code = 15 then
    (readLiterals fill).bind fun c => P.pure (.addClause c)
  else if code = 8 ∨ code = 7 then
    (readLiterals fill).bind fun c => (readHashes fill).bind fun hs =>
      P.pure (.atClause (decide (code = 7)) c hs)
  else if code = 9 then
    (readUnits fill).bind fun us => P.pure (.unitClauses us)
  else if code = 10 ∨ code = 11 ∨ code = 12 then
    (readLiterals fill).bind fun c =>
      P.pure (.deleteClause c
        (if code = 10 then .redundant else if code = 11 then .simplified else .satisfied))
  else if code = 13 then
    (rd fill).bind fun b => P.pure (.changeHashBits (b % 2 ^ 32))
  else if code = 14 then
    (readLiterals fill).bind fun a => P.pure (.model a)
  else if code = 16 then
    (readLiterals fill).bind fun a => P.pure (.assumptions a)
  else if code = 17 then
    (readLiterals fill).bind fun c => (readHashes fill).bind fun hs =>
      P.pure (.failedAssumptions c hs)
  else if code = codeEnd then
    P.pure .end_
  else P.fail .badCode

/-- `Parser::parse_step`, `binary_format.rs:167-265`. -/
def parseStep (fill : Nat → Nat) : P ProofStep := (rd fill).bind (parseBody fill)

end Fmt
end Varisat
