import Verif.Model.ProofOut
/-!
# Model: proof output with its `BufWriter` and targets that may fail (`varisat/src/proof.rs`, `solver.rs:138-238`)

`ProofOut` leaves it to the environment which I/O operations succeed. Here the results are those of the `BufWriter` of
`proof.rs:60`, which works on the target given to `write_proof`: a target may take only a part of the bytes offered and may fail at
any call. The functions are those of `ProofOut`, the calls of the `BufWriter` are those of `LratBuffer`.

Simplifications: those of `ProofOut` without the one about I/O operations, and those of `LratBuffer` about `BufWriter`. How the bytes of
a step are divided into calls of `write_all` (`binary_format.rs`, `vli_enc.rs`, `drat.rs`) is left open, see `Dev.split`.
-/
namespace Varisat.Out.Buf
open Lrat (Target)
open Lrat.Io (F M)

/-- Outside world. -/
structure Dev where
  /-- the targets given to `write_proof`, in the order in which they are dropped -/
  target : Nat → Target
  /-- the calls of `write_all` by which the bytes of a step are written -/
  split : Bytes → List Bytes
  chk : Checker.Env
  /-- the file given to `WriteLrat`, of the command line tool -/
  lrat : Target := .all

/-- The pieces make up the whole. -/
def Dev.Ok (d : Dev) : Prop := ∀ bs, (d.split bs).flatten = bs

/-- The environment of an operation with this result. -/
def Dev.env (d : Dev) (ok : Bool) : Env := ⟨fun _ => ok, d.chk, d.lrat⟩

/-- The bytes of a step, `proof.rs:191-202`. -/
def encode : Format → ProofStep → Bytes
  | .varisat, st => Fmt.writeStep st
  | .drat, st => (Drat.writeStep false st).getD []
  | .binaryDrat, st => (Drat.writeStep true st).getD []

/-- The state of `ProofOut` and the `BufWriter`. Beyond the code, `log` has the results of the I/O operations and `files` the data in
the former targets. -/
structure B where
  s : Sess := {}
  /-- the `BufWriter`; of the fields of `F` those of LRAT files are not used -/
  w : F := { binary := false }
  log : List Bool := []
  files : List Bytes := []

/-- Calls of `write_all`, up to the first error. -/
def putAll (t : Target) : List Bytes → M Unit
  | [] => pure ()
  | c :: cs => do
    Lrat.Io.put t c
    putAll t cs

/-- `Drop for BufWriter`, which ignores errors. -/
def discard (t : Target) (w : F) : F :=
  match Lrat.Io.flushBuf t w with
  | .ok _ w => w
  | .error _ w => w

/-- The current target. -/
def B.target (d : Dev) (b : B) : Target := d.target b.files.length

/-- The data in the current target when the `BufWriter` is dropped. -/
def B.left (d : Dev) (b : B) : List Bytes :=
  if b.s.proof.format.isSome then [(discard (b.target d) b.w).data] else []

/-- `*proof = Proof::default()`. -/
def B.drop (d : Dev) (b : B) : B :=
  { b with s := b.s.drop, w := { binary := false }, files := b.files ++ b.left d }

/-- A `write_step` call on the target: whether it succeeded. -/
def put (d : Dev) (b : B) (st : ProofStep) : B × Bool :=
  let bytes := match b.s.proof.format with
    | some f => encode f st
    | none => []
  match putAll (b.target d) (d.split bytes) b.w with
  | .ok _ w => ({ b with s := (Out.put (d.env true) b.s st).1, w := w, log := b.log ++ [true] }, true)
  | .error _ w => ({ b with s := (Out.put (d.env false) b.s st).1, w := w, log := b.log ++ [false] }, false)

/-- The `write_step` call for a given step. -/
def putStep (d : Dev) (b : B) (st out : ProofStep) : B × Bool :=
  match put d b out with
  | (b, true) => ({ b with s := { b.s with proof := { b.s.proof with given := b.s.proof.given ++ [st] } } }, true)
  | (b, false) => (b, false)

/-- `write_varisat_step` before the calls of `write_step`, `proof.rs:224-236`. -/
def count (b : B) (st : ProofStep) : B :=
  let count := b.s.proof.count + delta st
  { b with s := { b.s with proof := { b.s.proof with
      count := count, hashBits := nextBits b.s.invoked count b.s.proof.hashBits } } }

/-- `write_varisat_step` after the change of the hash bits, `proof.rs:247-255`. -/
def writeHashed (d : Dev) (st : ProofStep) (b : B) : Option (B × Bool) :=
  if b.s.proof.hashBits > 64 then none
  else some (putStep d b st (mapHashes (· >>> (64 - b.s.proof.hashBits)) st))

/-- `write_varisat_step`, `proof.rs:217-258`. -/
def writeVarisat (d : Dev) (b : B) (st : ProofStep) : Option (B × Bool) :=
  if rehashed b.s.invoked (b.s.proof.count + delta st) b.s.proof.hashBits then
    match put d (count b st) (.changeHashBits (count b st).s.proof.hashBits) with
    | (b, false) => some (b, false)
    | (b, true) => writeHashed d st b
  else writeHashed d st (count b st)

/-- `handle_io_errors` for an error, `proof.rs:315-323`. -/
def fail (d : Dev) (b : B) : B :=
  let b := b.drop d
  { b with s := { b.s with error := some .io } }

/-- `handle_self_check_result`, `proof.rs:291-312`. -/
def handleCheck (d : Dev) (b : B) : EStateM.Result Checker.Err Checker.St Unit → Option B
  | .ok () c => some { b with s := { b.s with proof := { b.s.proof with checker := some c } } }
  | .error .processor _ =>
    let b := b.drop d
    some { b with s := { b.s with error := some .processor, rejected := b.s.rejected + 1 } }
  | .error _ _ => none

/-- `io_result` of `add_step`, `proof.rs:190-201`. -/
def writeOut (d : Dev) (b : B) (st : ProofStep) : Option (B × Bool) :=
  match b.s.proof.format with
  | some .varisat => writeVarisat d b st
  | some _ => if (Drat.steps st).isSome then some (putStep d b st st) else none
  | none => some (b, true)

/-- Passing a call to the checker, `proof.rs:205-209`, `proof.rs:141-150` and `proof.rs:282-285`. -/
def tell (d : Dev) (b : B) (m : Checker.CM Unit) : Option B :=
  match b.s.proof.checker with
  | some c => handleCheck d b (m c)
  | none => some b

/-- `add_step`, `proof.rs:164-214`. -/
def addStep (d : Dev) (b : B) (st : ProofStep) : Option B :=
  if b.s.error.isSome then some b
  else
    match writeOut d b st with
    | none => none
    | some (b, false) => some (fail d b)
    | some (b, true) => tell d b (Checker.selfCheckStep d.chk st)

/-- `clause_count += 1` of `add_clause`, `proof.rs:151-153`. -/
def counted (c : List Lit) (b : B) : B :=
  if c.length > 1 then { b with s := { b.s with proof := { b.s.proof with count := b.s.proof.count + 1 } } } else b

/-- `add_clause`, `proof.rs:132-156`. -/
def addClause (d : Dev) (b : B) (c : List Lit) : Option B :=
  if b.s.invoked then addStep d b (.addClause c)
  else
    match tell d b (Checker.addClause d.chk c) with
    | none => none
    | some b => some (counted c b)

/-- `flush_proof`, `proof.rs:261-265`. -/
def flush (d : Dev) (b : B) : B :=
  if b.s.proof.format.isSome then
    match Lrat.Io.flushTarget (b.target d) b.w with
    | .ok _ w => { b with s := { b.s with ios := b.s.ios + 1 }, w := w, log := b.log ++ [true] }
    | .error _ w => fail d { b with s := { b.s with ios := b.s.ios + 1 }, w := w, log := b.log ++ [false] }
  else b

/-- `self.target = BufWriter::new(..)`, `proof.rs:87-88` and `proof.rs:273-274`. -/
def retarget (d : Dev) (f : Option Format) (b : B) : B :=
  { b with
    s := { b.s with
      proof := { b.s.proof with format := f, given := [], written := [] }
      files := b.s.files ++ b.s.proof.file }
    w := { binary := false }
    files := b.files ++ b.left d }

/-- `proof::close_proof`, `proof.rs:268-275`. -/
def closeOutput (d : Dev) (b : B) : Option B :=
  match addStep d b .end_ with
  | none => none
  | some b => some (retarget d none (flush d b))

/-- `solve_finished`, `proof.rs:280-286`. -/
def solveFinished (d : Dev) (b : B) : Option B := tell d (flush d b) (Checker.processUnitConflicts d.chk)

def exec (d : Dev) (b : B) : Ev → Option B
  | .step st => addStep d b st
  | .clause c => addClause d b c
  | .sat v => some { b with s := { b.s with sat := v } }
  | .nonEmpty => some { b with s := { b.s with empty := false } }

def runEvs (d : Dev) : List Ev → B → Option B
  | [], b => some b
  | ev :: evs, b =>
    match exec d b ev with
    | none => none
    | some b => runEvs d evs b

/-- `while schedule_step(..) {}`, `solver.rs:147`, `schedule.rs:61-65`; whether the loop has ended. -/
def schedule (d : Dev) : List (List Ev) → B → Option (B × Bool)
  | steps, b =>
    if b.s.sat ≠ .unknown ∨ b.s.error.isSome then some (b, true)
    else match steps with
      | [] => some (b, false)
      | evs :: rest =>
        match runEvs d evs b with
        | none => none
        | some b => schedule d rest b

/-- `check_for_solver_error`, `solver.rs:164-176`. -/
def takeError (b : B) : B × Option SErr := ({ b with s := (Out.takeError b.s).1 }, (Out.takeError b.s).2)

/-- The end of `Solver::solve`, `solver.rs:149-157`. -/
def solved (d : Dev) (b : B) : Option (B × Option Ret) :=
  match solveFinished d b with
  | none => none
  | some b =>
    match takeError b with
    | (b, some er) => some (b, some (.err er))
    | (b, none) => some (b, some (match b.s.sat with
        | .unknown => .err .interrupted
        | .sat => .answer true
        | .unsat | .unsatUnder => .answer false))

/-- `Solver::solve`, `solver.rs:138-158`; no result means that it has not returned. -/
def solve (d : Dev) (steps : List (List Ev)) (b : B) : Option (B × Option Ret) :=
  if b.s.invalid then none
  else
    match schedule d steps { b with s := { b.s with invoked := true } } with
    | none => none
    | some (b, false) => some (b, none)
    | some (b, true) => solved d b

/-- `Solver::close_proof`, `solver.rs:234-238`. -/
def close (d : Dev) (b : B) : Option (B × Option Ret) :=
  match closeOutput d b with
  | none => none
  | some b =>
    match takeError b with
    | (b, some er) => some (b, some (.err er))
    | (b, none) => some (b, some .unit)

/-- `Solver::write_proof`, `solver.rs:223-229`, `proof.rs:86-89`. -/
def writeProof (d : Dev) (f : Format) (b : B) : Option B :=
  if b.s.empty then some (retarget d (some f) b) else none

/-- `Solver::enable_self_checking`, `solver.rs:243-249`, `proof.rs:92-96`. -/
def selfCheck (b : B) : Option B :=
  if b.s.empty then some { b with s := { b.s with proof := { b.s.proof with checker := some (b.s.proof.checker.getD {}) } } }
  else none

/-- One call of the public interface. -/
def call (d : Dev) (b : B) : Op → Option (B × Option Ret)
  | .writeProof f => (writeProof d f b).map (·, some .unit)
  | .selfCheck => (selfCheck b).map (·, some .unit)
  | .call evs => (runEvs d evs b).map (·, some .unit)
  | .solve steps => solve d steps b
  | .close => close d b

/-- The states reached by calls that return, with what they returned. -/
inductive Ran (d : Dev) : B → List (Op × Ret) → B → Prop
  | nil {b} : Ran d b [] b
  | snoc {b b' b'' h r} (op : Op) : Ran d b h b' → call d b' op = some (b'', some r) → Ran d b (h ++ [(op, r)]) b''

end Varisat.Out.Buf
