import Verif.Model.Checker
import Verif.Model.ProofFormat
/-!
# Model: `varisat-lrat/src/lib.rs` (LRAT and compact LRAT output) and
`varisat/src/proof/drat.rs` (DRAT output)

Simplifications: writing to the target never fails (an I/O error is handed to the caller, which
stops); `u64` and `i32` quantities are unbounded numbers (ids are below `2^63`, DIMACS numbers are
at most `2^28` by `C01`); `itoa` and `leb128` are external crates, modelled by what they document.
-/
namespace Varisat

/-- `leb128::write::unsigned` (external crate): 7 bits per byte, least significant group first, the
high bit marks that more bytes follow. -/
def leb (n : Nat) : Bytes :=
  if n < 128 then [UInt8.ofNat n] else UInt8.ofNat (n % 128 + 128) :: leb (n / 128)
termination_by n

namespace Lrat
open Checker

/-- `WriteLrat`, `lib.rs:13-19`; `target` is the bytes written so far. -/
structure W where
  binary : Bool
  target : Bytes := []
  deleteOpen : Bool := false
  lastAddedId : Nat := 0
  bufferedDeletes : List Nat := []
deriving DecidableEq, Repr

/-- `self.target.write_all(..)`. -/
def W.put (w : W) (bs : Bytes) : W := { w with target := w.target ++ bs }

/-- `write_ids`, `lib.rs:162-174`. -/
def W.writeIds (w : W) (ids : List Nat) : W :=
  w.put (if w.binary then ids.flatMap (fun id => leb ((id + 1) * 2))
    else ids.flatMap (fun id => decNat (id + 1) ++ [32]))

/-- `write_lits`, `lib.rs:177-189`. -/
def W.writeLits (w : W) (lits : List Lit) : W :=
  w.put (if w.binary then lits.flatMap (fun l => leb (l.code + 2))
    else lits.flatMap (fun l => decInt l.toDimacs ++ [32]))

/-- `write_end`, `lib.rs:192-199`. -/
def W.writeEnd (w : W) : W := w.put (if w.binary then [0] else [48, 10])

/-- `write_sep`, `lib.rs:202-209`. -/
def W.writeSep (w : W) : W := w.put (if w.binary then [0] else [48, 32])

/-- `write_delete_step`, `lib.rs:144-151`. -/
def W.writeDeleteStep (w : W) : W := w.put (if w.binary then [100] else [100, 32])

/-- `write_add_step`, `lib.rs:154-159`. -/
def W.writeAddStep (w : W) : W := if w.binary then w.put [97] else w

/-- `open_delete`, `lib.rs:123-132`. -/
def W.openDelete (w : W) : W :=
  if !w.deleteOpen then
    let w := if !w.binary then w.writeIds [w.lastAddedId] else w
    { w.writeDeleteStep with deleteOpen := true }
  else w

/-- `close_delete`, `lib.rs:135-141`. -/
def W.closeDelete (w : W) : W :=
  if w.deleteOpen then { w.writeEnd with deleteOpen := false } else w

/-- First `match` of `process_step`, `lib.rs:23-33`. -/
def W.flushBuffered (w : W) : CheckedStep → W
  | .addClause .. | .duplicatedClause .. => w
  | _ =>
      if w.bufferedDeletes ≠ [] then
        ({ w with bufferedDeletes := [] }.openDelete).writeIds w.bufferedDeletes
      else w

/-- The arm of `DuplicatedClause` and `TautologicalClause`, `lib.rs:39-50`. -/
def W.skipped (w : W) (id : Nat) : W :=
  let w := { w with lastAddedId := id }
  if w.binary then w.openDelete.writeIds [id]
  else { w with bufferedDeletes := w.bufferedDeletes ++ [id] }

/-- Second `match` of `process_step`, `lib.rs:35-91`. -/
def W.writeStep (w : W) : CheckedStep → W
  | .addClause id _ => { w with lastAddedId := id }
  | .duplicatedClause id _ _ => w.skipped id
  | .tautologicalClause id _ => w.skipped id
  | .atClause id _ clause propagations =>
      let w := w.closeDelete
      let w := { w with lastAddedId := id }
      let w := w.writeAddStep
      let w := w.writeIds [id]
      let w := w.writeLits clause
      let w := w.writeSep
      let w := w.writeIds propagations
      w.writeEnd
  | .deleteAtClause id keep _ _ => if !keep then w.openDelete.writeIds [id] else w
  | .deleteRatClause id keep _ _ => if !keep then w.openDelete.writeIds [id] else w
  | .deleteClause id _ => w.openDelete.writeIds [id]
  | .userVar .. | .makeIrredundant .. | .model .. | .assumptions .. | .failedAssumptions .. => w

/-- `ProofProcessor::process_step`, `lib.rs:22-92`. -/
def W.processStep (w : W) (s : CheckedStep) : W := (w.flushBuffered s).writeStep s

/-- What a user of the writer can do between creating and dropping it. -/
inductive Op
  | step (s : CheckedStep)
  | flush
deriving DecidableEq, Repr

/-- One use; `flush`, `lib.rs:116-120` (flushing the target itself writes nothing new). -/
def W.op (w : W) : Op → W
  | .step s => w.processStep s
  | .flush => w.closeDelete

/-- The bytes left behind by a writer created with `new` (`lib.rs:102-110`), used, and dropped
(`Drop`, `lib.rs:211-215`). -/
def output (binary : Bool) (ops : List Op) : Bytes :=
  (ops.foldl W.op { binary := binary }).closeDelete.target

end Lrat

namespace Drat

/-- `drat_step`, `drat.rs:7-41`: the emitted steps (`true` for an addition); `none` is a panic. -/
def steps : ProofStep → Option (List (Bool × List Lit))
  | .atClause _ clause _ => some [(true, clause)]
  | .unitClauses units => some (units.map (fun u => (true, [u.1])))
  | .deleteClause clause _ => some [(false, clause)]
  | .solverVarName .. | .userVarName .. | .deleteVar .. | .changeSamplingMode ..
  | .changeHashBits .. | .model .. | .end_ => some []
  | .addClause .. => none
  | .assumptions .. | .failedAssumptions .. => none

/-- `write_literals`, `drat.rs:68-75`. -/
def writeLiterals (lits : List Lit) : Bytes :=
  lits.flatMap (fun l => decInt l.toDimacs ++ [32]) ++ [48, 10]

/-- `write_binary_literals`, `drat.rs:78-85`. -/
def writeBinaryLiterals (lits : List Lit) : Bytes :=
  lits.flatMap (fun l => leb (l.code + 2)) ++ [0]

/-- The closure of `write_step`, `drat.rs:44-52`. -/
def emitText (e : Bool × List Lit) : Bytes :=
  (if !e.1 then [100, 32] else []) ++ writeLiterals e.2

/-- The closure of `write_binary_step`, `drat.rs:55-65`. -/
def emitBinary (e : Bool × List Lit) : Bytes :=
  (if e.1 then [97] else [100]) ++ writeBinaryLiterals e.2

/-- `write_step` / `write_binary_step`, `drat.rs:44-65`. -/
def writeStep (binary : Bool) (s : ProofStep) : Option Bytes :=
  (steps s).map (fun es => es.flatMap (if binary then emitBinary else emitText))

/-- A whole proof: the bytes of its steps one after the other (`proof.rs:191-202`). -/
def output (binary : Bool) : List ProofStep → Option Bytes
  | [] => some []
  | s :: rest => do return (← writeStep binary s) ++ (← output binary rest)

end Drat
end Varisat
