import Verif.Model.Lrat
/-!
# Model: `varisat-lrat/src/lib.rs` with its `BufWriter` and a target that may fail

`Model/Lrat` has the bytes `WriteLrat` produces. Here is where they are: in the buffer of the `BufWriter` or in the target, which
may take only a part of the bytes offered and may fail at any call.

Simplifications.
* `BufWriter` is part of the standard library (`std/src/io/buffered/bufwriter.rs`, `flush_buf`, `write_all`, `write_all_cold`,
  `Drop`). Its capacity is that of `BufWriter::new`, 8 KiB.
* Calls that return `ErrorKind::Interrupted` are repeated by the library, they are left out.
* `itoa::write` is one `write_all`, `leb128::write::unsigned` is one for each byte.
* Targets do not panic.
-/
namespace Varisat.Lrat
open Checker

/-- The writer a `WriteLrat` was created with. -/
structure Target where
  /-- the result of the n-th call of `write`: the number of bytes it takes, if there are as many, or an error -/
  write : Nat → Option Nat
  /-- the result of `flush` when `write` was called n times -/
  flush : Nat → Bool

/-- A target that takes all it is offered. -/
def Target.all : Target where
  write _ := some 8192
  flush _ := true

/-- A target that takes nothing, such as a file on a full disk. -/
def Target.full : Target where
  write _ := none
  flush _ := true

/-- A call of `write` that takes nothing or returns an error. -/
def Target.FailsAt (t : Target) (k : Nat) : Prop := t.write k = none ∨ t.write k = some 0

namespace Io

/-- `BufWriter::new`. -/
def capacity : Nat := 8192

/-- `WriteLrat`, `lib.rs:13-19`, with the fields of its `BufWriter`. -/
structure F where
  binary : Bool
  /-- the buffer -/
  buf : Bytes := []
  /-- number of calls of `write` of the target -/
  calls : Nat := 0
  /-- what the target has taken -/
  data : Bytes := []
  deleteOpen : Bool := false
  lastAddedId : Nat := 0
  bufferedDeletes : List Nat := []
deriving DecidableEq, Repr

abbrev M := EStateM Unit F

/-- The loops of `BufWriter::flush_buf` and `Write::write_all`: whether they succeed, the bytes left, the number of calls and
what the target has taken. -/
def drain (t : Target) : Bytes → Nat → Bytes → Bool × Bytes × Nat × Bytes
  | [], k, d => (true, [], k, d)
  | b :: bs, k, d =>
    match t.write k with
    | some (n + 1) => drain t (bs.drop n) (k + 1) (d ++ b :: bs.take n)
    | _ => (false, b :: bs, k + 1, d)
termination_by bs => bs.length
decreasing_by simp; omega

variable (t : Target)

/-- `BufWriter::flush_buf`. -/
def flushBuf : M Unit := fun f =>
  match drain t f.buf f.calls f.data with
  | (ok, buf, calls, data) =>
    let f := { f with buf := buf, calls := calls, data := data }
    if ok then .ok () f else .error () f

/-- `BufWriter::write_all` if there is no room for the bytes. -/
def writeDirect (bs : Bytes) : M Unit := fun f =>
  match drain t bs f.calls f.data with
  | (ok, _, calls, data) =>
    let f := { f with calls := calls, data := data }
    if ok then .ok () f else .error () f

/-- `BufWriter::write_all` when there is room, or nothing is left to flush. -/
def putRest (bs : Bytes) : M Unit :=
  if capacity ≤ bs.length then writeDirect t bs
  else modify fun f => { f with buf := f.buf ++ bs }

/-- `BufWriter::write_all`. -/
def put (bs : Bytes) : M Unit := do
  let f ← get
  if bs.length < capacity - f.buf.length then set { f with buf := f.buf ++ bs }
  else if bs.length > capacity - f.buf.length then
    flushBuf t
    putRest t bs
  else putRest t bs

/-- A number, byte by byte, `leb128`. -/
def putBytes : Bytes → M Unit
  | [] => pure ()
  | b :: bs => do
    put t [b]
    putBytes bs

/-- A round of `write_ids`, `lib.rs:164-171`. -/
def writeId (id : Nat) : M Unit := do
  if (← get).binary then putBytes t (leb ((id + 1) * 2))
  else
    put t (decNat (id + 1))
    put t [32]

/-- `write_ids`, `lib.rs:162-174`. -/
def writeIds : List Nat → M Unit
  | [] => pure ()
  | id :: ids => do
    writeId t id
    writeIds ids

/-- A round of `write_lits`, `lib.rs:179-186`. -/
def writeLit (l : Lit) : M Unit := do
  if (← get).binary then putBytes t (leb (l.code + 2))
  else
    put t (decInt l.toDimacs)
    put t [32]

/-- `write_lits`, `lib.rs:177-189`. -/
def writeLits : List Lit → M Unit
  | [] => pure ()
  | l :: ls => do
    writeLit t l
    writeLits ls

/-- `write_end`, `lib.rs:192-199`. -/
def writeEnd : M Unit := do
  if (← get).binary then put t [0] else put t [48, 10]

/-- `write_sep`, `lib.rs:202-209`. -/
def writeSep : M Unit := do
  if (← get).binary then put t [0] else put t [48, 32]

/-- `write_delete_step`, `lib.rs:144-151`. -/
def writeDeleteStep : M Unit := do
  if (← get).binary then put t [100] else put t [100, 32]

/-- `write_add_step`, `lib.rs:154-159`. -/
def writeAddStep : M Unit := do
  if (← get).binary then put t [97]

/-- The id that begins a batched delete step, `lib.rs:125-127`. -/
def writeLast : M Unit := do
  let f ← get
  if !f.binary then writeIds t [f.lastAddedId]

/-- `open_delete`, `lib.rs:123-132`. -/
def openDelete : M Unit := do
  if !(← get).deleteOpen then
    writeLast t
    writeDeleteStep t
    modify fun f => { f with deleteOpen := true }

/-- `close_delete`, `lib.rs:135-141`. -/
def closeDelete : M Unit := do
  if (← get).deleteOpen then
    writeEnd t
    modify fun f => { f with deleteOpen := false }

/-- The last part of the first `match` of `process_step`, `lib.rs:27-31`. -/
def flushDeletes : M Unit := do
  let ids := (← get).bufferedDeletes
  if ids ≠ [] then
    modify fun f => { f with bufferedDeletes := [] }
    openDelete t
    writeIds t ids

/-- First `match` of `process_step`, `lib.rs:23-33`. -/
def flushBuffered : CheckedStep → M Unit
  | .addClause .. | .duplicatedClause .. => pure ()
  | _ => flushDeletes t

/-- A deleted id, `lib.rs:71-83`. -/
def delete (id : Nat) : M Unit := do
  openDelete t
  writeIds t [id]

/-- The arm of `DuplicatedClause` and `TautologicalClause` after setting `last_added_id`, `lib.rs:42-49`. -/
def skip (id : Nat) : M Unit := do
  if (← get).binary then delete t id
  else modify fun f => { f with bufferedDeletes := f.bufferedDeletes ++ [id] }

/-- The arm of `DuplicatedClause` and `TautologicalClause`, `lib.rs:39-50`. -/
def skipped (id : Nat) : M Unit := do
  modify fun f => { f with lastAddedId := id }
  skip t id

/-- Second `match` of `process_step`, `lib.rs:35-91`. -/
def writeStep : CheckedStep → M Unit
  | .addClause id _ => modify fun f => { f with lastAddedId := id }
  | .duplicatedClause id _ _ => skipped t id
  | .tautologicalClause id _ => skipped t id
  | .atClause id _ clause propagations => do
    closeDelete t
    modify fun f => { f with lastAddedId := id }
    writeAddStep t
    writeIds t [id]
    writeLits t clause
    writeSep t
    writeIds t propagations
    writeEnd t
  | .deleteAtClause id keep _ _ => if !keep then delete t id else pure ()
  | .deleteRatClause id keep _ _ => if !keep then delete t id else pure ()
  | .deleteClause id _ => delete t id
  | .userVar .. | .makeIrredundant .. | .model .. | .assumptions .. | .failedAssumptions .. => pure ()

/-- `ProofProcessor::process_step`, `lib.rs:22-92`. -/
def processStep (s : CheckedStep) : M Unit := do
  flushBuffered t s
  writeStep t s

/-- `self.target.flush()`: `BufWriter::flush`. -/
def flushTarget : M Unit := do
  flushBuf t
  if !t.flush (← get).calls then throw ()

/-- One use of a writer; `flush`, `lib.rs:116-120`. -/
def op : Op → M Unit
  | .step s => processStep t s
  | .flush => do
    closeDelete t
    flushTarget t

/-- Uses one after the other, until one of them fails. -/
def ops : List Op → M Unit
  | [] => pure ()
  | o :: os => do
    op t o
    ops os

/-- `new`, `lib.rs:102-110`, and uses of the writer: whether none of them failed, and the writer. -/
def use (binary : Bool) (os : List Op) : Bool × F :=
  match ops t os { binary := binary } with
  | .ok _ f => (true, f)
  | .error _ f => (false, f)

/-- `Drop for WriteLrat`, `lib.rs:211-215`, and `Drop for BufWriter`: errors are ignored. -/
def dropped (f : F) : F :=
  let f := match closeDelete t f with | .ok _ f => f | .error _ f => f
  match flushBuf t f with | .ok _ f => f | .error _ f => f

/-- As a proof processor: whether the last of these steps was processed without an error. -/
def accepts (binary : Bool) (steps : List CheckedStep) : Bool := (use t binary (steps.map .step)).1

/-- What is in the target after these steps when the writer is dropped. -/
def file (binary : Bool) (steps : List CheckedStep) : Bytes := (dropped t (use t binary (steps.map .step)).2).data

end Io
end Varisat.Lrat
