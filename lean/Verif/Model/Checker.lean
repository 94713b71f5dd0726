import Verif.Model.Hash
import Verif.Proof.ProofFormat
/-!
# Model: the proof checker, `varisat-checker/src/*.rs`

State and control flow follow the code function by function; mutation inside a fallible function is
kept on error (`EStateM`), as in Rust.

Simplifications that apply throughout:
* `Vec`s indexed by variable or literal (`unit_clauses`, `var_data`, `lit_data`) are functions together
  with `nvars`, their common length (only `ensure_var` resizes them, all three together). An access out
  of range, where the code does not first ensure the variable, is an explicit panic.
* `HashMap<ClauseHash, SmallVec<Clause>>` is an association list of buckets. Where the code depends on
  the iteration order the model applies an arbitrary permutation `env.iter`.
* Reference counts and clause ids are unbounded (the code panics on `u32` reference count overflow).
* Several registered processors are treated as one, which may accept or reject each step.
* Debug-only panics (integer overflow) are not modelled.
-/
namespace Varisat.Checker

/-! ### Types -/

/-- `ClauseLits`, `clauses.rs:22-25`. -/
structure ClauseLits where
  length : Nat
  inline : List Nat
deriving DecidableEq, Repr

/-- `ClauseLits::new`, `clauses.rs:29-52` (with the new buffer contents). -/
def ClauseLits.new (lits buffer : List Lit) : ClauseLits × List Lit :=
  if lits.length > 3 then
    (⟨lits.length, [buffer.length, 0, 0]⟩, buffer ++ lits)
  else
    (⟨lits.length, lits.map (·.code) ++ List.replicate (3 - lits.length) 0⟩, buffer)

/-- `ClauseLits::slice`, `clauses.rs:55-69`. -/
def ClauseLits.slice (c : ClauseLits) (buffer : List Lit) : List Lit :=
  if c.length > 3 then (buffer.drop (c.inline.getD 0 0)).take c.length
  else (c.inline.take c.length).map Lit.mk

/-- `ClauseLits::buffer_used`, `clauses.rs:72-78`. -/
def ClauseLits.bufferUsed (c : ClauseLits) : Nat := if c.length > 3 then c.length else 0

/-- `Clause`, `clauses.rs:82-92`; `irred`, `red` are `ref_count[0]`, `ref_count[1]`. -/
structure Clause where
  id : Nat
  irred : Nat
  red : Nat
  lits : ClauseLits
deriving DecidableEq, Repr

/-- `UnitId`, `clauses.rs:96-100`. -/
inductive UnitId
  | global (id : Nat)
  | tracePos (pos : Nat)
  | inClause
deriving DecidableEq, Repr

/-- `UnitClause`, `clauses.rs:104-107`. -/
structure UnitClause where
  id : UnitId
  value : Bool
deriving DecidableEq, Repr

/-- `StoreClauseResult`, `clauses.rs:111-115`. -/
inductive StoreResult
  | new | duplicate | newlyIrredundant
deriving DecidableEq, Repr

/-- `DeleteClauseResult`, `clauses.rs:119-123`. -/
inductive DeleteResult
  | unchanged | newlyRedundant | removed
deriving DecidableEq, Repr

/-- `SamplingMode`, `variables.rs:20-24`. -/
inductive SamplingMode
  | sample | witness | hide
deriving DecidableEq, Repr

/-- The map from hashes to clauses (`Clauses::clauses`, `clauses.rs:134`). -/
abbrev Buckets := List (Nat × List Clause)

/-- `TraceItem`, `rup.rs:18-22`. -/
structure TraceItem where
  id : Nat
  edges : Nat × Nat
  unused : Bool
deriving DecidableEq, Repr

/-- `CheckedUserVar`, `processing.rs:100-104`. -/
structure CheckedUserVar where
  userVar : Nat
  witness : Bool
  newVar : Bool
deriving DecidableEq, Repr

/-- `CheckedProofStep`, `processing.rs:19-89`. -/
inductive CheckedStep
  | userVar (var : Nat) (user : Option CheckedUserVar)
  | addClause (id : Nat) (clause : List Lit)
  | duplicatedClause (id sameAs : Nat) (clause : List Lit)
  | tautologicalClause (id : Nat) (clause : List Lit)
  | atClause (id : Nat) (redundant : Bool) (clause : List Lit) (propagations : List Nat)
  | deleteClause (id : Nat) (clause : List Lit)
  | deleteAtClause (id : Nat) (keepAsRedundant : Bool) (clause : List Lit) (propagations : List Nat)
  | deleteRatClause (id : Nat) (keepAsRedundant : Bool) (clause : List Lit) (pivot : Lit)
  | makeIrredundant (id : Nat) (clause : List Lit)
  | model (assignment : List Lit)
  | assumptions (assumptions : List Lit)
  | failedAssumptions (core : List Lit) (propagations : List Nat)
deriving DecidableEq, Repr

/-- `ProofTranscriptStep`, `transcript.rs:14-24`. -/
inductive TranscriptStep
  | witnessVar (var : Nat)
  | sampleVar (var : Nat)
  | hideVar (var : Nat)
  | observeInternalVar (var : Nat)
  | addClause (clause : List Lit)
  | unsat
  | model (assignment : List Lit)
  | assume (assumptions : List Lit)
  | failedAssumptions (core : List Lit)
deriving DecidableEq, Repr

/-- Reasons of `CheckerError::CheckFailed`. -/
inductive Why
  | deletedUserVar | varHasClauses | sampleHidden | tautology | notSatisfied | notSubsumed
  | modelUnit | modelConflict | modelAssumption | modelClause | coreNotAssumed
  | deleteUnit | deleteUnknown | deleteIsIrredundant | deleteIsRedundant
  | noClauseForHash (hash : Nat) | atFailed | notSampling | userNameUsed | stillHidden
  | userNameInUse | noUserName
deriving DecidableEq, Repr

/-- `CheckerError`, `lib.rs:38-64`, and panics. -/
inductive Err
  | checkFailed (step : Nat) (why : Why)
  | processor
  | proofIncomplete (step : Nat)
  | parseError (step : Nat)
  | panic
deriving DecidableEq, Repr

/-- `Context` and its parts: `CheckerState` (`state.rs:32-47`), `ClauseHasher` (`hash.rs:12-23`),
`Clauses` (`clauses.rs:126-142`), `Variables` (`variables.rs:42-52`), `RupCheck` (`rup.rs:25-34`). The
last two fields record the steps passed to processors. -/
structure St where
  step : Nat := 0
  unsat : Bool := false
  ended : Bool := false
  prevId : Option Nat := none
  prevLits : List Lit := []
  assumptions : List Lit := []
  hashBits : Nat := 64
  buffered : List (Nat × Option Nat) := []
  rename : Bool := false
  names : Nat → Option Nat := fun _ => none
  nextId : Nat := 0
  buffer : List Lit := []
  garbage : Nat := 0
  clauses : Buckets := []
  units : Nat → Option UnitClause := fun _ => none
  unitConflict : Option (Nat × Nat) := none
  nvars : Nat := 0
  clauseCount : Nat → Nat := fun _ => 0
  userVar : Nat → Option Nat := fun _ => none
  mode : Nat → SamplingMode := fun _ => .sample
  usedUser : Nat → Bool := fun _ => false
  trail : List (Nat × Option UnitClause) := []
  trace : List TraceItem := []
  edges : List Nat := []
  traceIds : List Nat := []
  out : List CheckedStep := []
  tout : List TranscriptStep := []

/-- What is outside the checker: registered processors (present or not; accept or reject given what
they have seen) and the iteration order of the hash map. -/
structure Env where
  hasProc : Bool
  proc : List CheckedStep → Bool
  hasTranscript : Bool
  transcript : List TranscriptStep → Bool
  iter : Buckets → Buckets
  iter_perm : ∀ m, (iter m).Perm m

abbrev CM := EStateM Err St

/-- Functional update. -/
def upd {α : Type} (f : Nat → α) (i : Nat) (a : α) : Nat → α := fun j => if j = i then a else f j

/-- `Err(CheckerError::check_failed(step, ..))`. -/
def fail {α : Type} (why : Why) : CM α := fun s => .error (.checkFailed s.step why) s

def panic {α : Type} : CM α := fun s => .error .panic s

def modifySt (f : St → St) : CM Unit := fun s => .ok () (f s)

def getSt : CM St := fun s => .ok s s

/-! ### Processing (`processing.rs`, `transcript.rs`) -/

/-- `CheckerData::user_from_proof_var`, `processing.rs:120-137`. -/
def userFromProofVar (s : St) (v : Nat) : Option Nat :=
  if v < s.nvars then
    match s.userVar v with
    | some u => some u
    | none => if s.mode v = .sample then some v else none
  else none

/-- `lit.map_var(|var| user_from_proof_var(var).expect(..))` over a slice; `none` is the panic. -/
def mapLits (s : St) : List Lit → Option (List Lit)
  | [] => some []
  | l :: ls =>
    match userFromProofVar s l.var, mapLits s ls with
    | some u, some us => some (Lit.mk' u (!l.isNeg) :: us)
    | _, _ => none

/-- `Transcript::transcript_step`, `transcript.rs:40-132`; outer `none` is a panic. -/
def transcriptStep (s : St) : CheckedStep → Option (Option TranscriptStep)
  | .userVar v none => (userFromProofVar s v).map fun u => some (.hideVar u)
  | .userVar _ (some u) =>
    some (if u.newVar then
        if u.witness then some (.observeInternalVar u.userVar) else none
      else if u.witness then some (.witnessVar u.userVar) else some (.sampleVar u.userVar))
  | .addClause _ c | .duplicatedClause _ _ c | .tautologicalClause _ c =>
    (mapLits s c).map fun c => some (.addClause c)
  | .atClause _ _ c _ => some (if c.isEmpty then some .unsat else none)
  | .model a => some (some (.model (a.filterMap fun l =>
      (userFromProofVar s l.var).map fun u => Lit.mk' u (!l.isNeg))))
  | .assumptions a => (mapLits s a).map fun c => some (.assume c)
  | .failedAssumptions a _ => (mapLits s a).map fun c => some (.failedAssumptions c)
  | _ => some none

/-- `process_step`, `processing.rs:158-189`. -/
def emit (env : Env) (step : CheckedStep) : CM Unit := fun s =>
  let s := { s with out := s.out ++ [step] }
  if env.hasProc && !env.proc s.out then .error .processor s
  else if env.hasTranscript then
    match transcriptStep s step with
    | none => .error .panic s
    | some none => .ok () s
    | some (some t) =>
      let s := { s with tout := s.tout ++ [t] }
      if env.transcript s.tout then .ok () s else .error .processor s
  else .ok () s

/-! ### Hashing (`hash.rs`) -/

/-- `ClauseHasher::clause_hash`, `hash.rs:38-48`. The shift is taken modulo 64 as in release builds
(`hash_bits` outside 1..64 panics in debug builds). -/
def hashOf (hashBits : Nat) (names : Nat → Option Nat) (lits : List Lit) : Nat :=
  let hash := lits.foldl (fun h l =>
    match names l.var with
    | some v => h ^^^ litHash (Lit.mk' v (!l.isNeg))
    | none => h ^^^ litCodeHash (l.code + maxVarCount * 2)) 0
  hash >>> ((2 ^ 32 + 64 - hashBits) % 64)

/-- `HashMap::get`, a missing entry being an empty bucket. -/
def bucket (m : Buckets) (h : Nat) : List Clause :=
  match m with
  | [] => []
  | (k, cs) :: m => if k = h then cs else bucket m h

/-- Replace or insert the bucket of a hash. -/
def setBucket (m : Buckets) (h : Nat) (cs : List Clause) : Buckets :=
  match m with
  | [] => [(h, cs)]
  | (k, ds) :: m => if k = h then (k, cs) :: m else (k, ds) :: setBucket m h cs

/-- `HashMap::remove`. -/
def removeBucket (m : Buckets) (h : Nat) : Buckets := m.filter fun b => b.1 != h

/-- Apply buffered name changes, `hash.rs:56-62`. -/
def applyNames : List (Nat × Option Nat) → (Nat → Option Nat) → (Nat → Option Nat)
  | [], names => names
  | (g, s) :: rest, names => applyNames rest (upd names g s)

/-- `rehash`, `hash.rs:52-74`. -/
def rehash (env : Env) (s : St) : St :=
  let names := applyNames s.buffered s.names
  let old := (env.iter s.clauses).flatMap (·.2)
  { s with
    names := names
    buffered := []
    rename := false
    clauses := old.foldl (fun m c =>
      let h := hashOf s.hashBits names (c.lits.slice s.buffer)
      setBucket m h (bucket m h ++ [c])) [] }

/-! ### Variables (`variables.rs`) -/

/-- `ensure_var`, `variables.rs:73-87`. -/
def ensureVar (v : Nat) (s : St) : St := if s.nvars ≤ v then { s with nvars := v + 1 } else s

/-- `for &lit in lits { ensure_var(lit.var()) }`. -/
def ensureVars (lits : List Lit) (s : St) : St := lits.foldl (fun s l => ensureVar l.var s) s

/-- `ensure_sampling_var`, `variables.rs:55-70`. -/
def ensureSamplingVar (v : Nat) : CM Unit := do
  modifySt (ensureVar v)
  let s ← getSt
  if s.mode v ≠ .sample then fail .notSampling
  else pure ()

def ensureSamplingVars : List Lit → CM Unit
  | [] => pure ()
  | l :: ls => do
    ensureSamplingVar l.var
    ensureSamplingVars ls

/-- `add_user_mapping`, `variables.rs:90-154`. -/
def addUserMapping (env : Env) (global user : Nat) : CM Unit := do
  modifySt (ensureVar global)
  let s ← getSt
  if s.nvars ≤ user ∨ s.usedUser user = true then fail .userNameUsed
  else if s.mode global = .hide then fail .stillHidden
  else if (s.userVar global).isSome then fail .userNameInUse
  else do
    modifySt fun s => { s with
      userVar := upd s.userVar global (some user)
      usedUser := upd s.usedUser user true }
    emit env (.userVar global (some ⟨user, decide (s.mode global = .witness), true⟩))

/-- `remove_user_mapping`, `variables.rs:157-195`. -/
def removeUserMapping (env : Env) (global : Nat) : CM Unit := do
  modifySt (ensureVar global)
  let s ← getSt
  match s.userVar global with
  | none => fail .noUserName
  | some user => do
    emit env (.userVar global none)
    modifySt fun s => { s with
      usedUser := upd s.usedUser user false
      userVar := upd s.userVar global none
      mode := upd s.mode global .hide }

/-! ### Clauses (`clauses.rs`) -/

/-- `Clauses::lit_value`, `clauses.rs:146-149`. -/
def litValue (units : Nat → Option UnitClause) (l : Lit) : Option (Bool × UnitClause) :=
  (units l.var).map fun u => (u.value ^^ l.isNeg, u)

/-- `store_unit_clause`, `clauses.rs:300-339`. -/
def storeUnitClause (l : Lit) : CM (Nat × StoreResult) := do
  let s ← getSt
  match litValue s.units l with
  | some (true, ⟨.global id, _⟩) => pure (id, .duplicate)
  | some (false, ⟨.global conflicting, _⟩) => do
    modifySt fun s => { s with
      unsat := true
      unitConflict := some (conflicting, s.nextId)
      nextId := s.nextId + 1 }
    pure (s.nextId, .new)
  | some _ => panic
  | none => do
    modifySt fun s => { s with
      units := upd s.units l.var (some ⟨.global s.nextId, !l.isNeg⟩)
      nextId := s.nextId + 1 }
    pure (s.nextId, .new)

/-- The candidate loop of `store_clause`, `clauses.rs:259-272`. -/
def bumpCandidate (buffer lits : List Lit) (redundant : Bool) :
    List Clause → Option (List Clause × Nat × StoreResult)
  | [] => none
  | c :: cs =>
    if c.lits.slice buffer = lits then
      let result := if !redundant && c.irred == 0 then .newlyIrredundant else .duplicate
      let c' := if redundant then { c with red := c.red + 1 } else { c with irred := c.irred + 1 }
      some (c' :: cs, c.id, result)
    else
      match bumpCandidate buffer lits redundant cs with
      | some (cs', r) => some (c :: cs', r)
      | none => none

/-- `clause_count += 1` for the literals of a new clause, `clauses.rs:287-289`. -/
def countUp (lits : List Lit) (f : Nat → Nat) : Nat → Nat :=
  lits.foldl (fun f l => upd f l.code (f l.code + 1)) f

/-- `clause_count -= 1`, `clauses.rs:411-413`. -/
def countDown (lits : List Lit) (f : Nat → Nat) : Nat → Nat :=
  lits.foldl (fun f l => upd f l.code (f l.code - 1)) f

/-- The multi-literal case of `store_clause`, `clauses.rs:252-292`. -/
def storeLong (lits : List Lit) (redundant : Bool) : CM (Nat × StoreResult) := fun s =>
  let hash := hashOf s.hashBits s.names lits
  let candidates := bucket s.clauses hash
  match bumpCandidate s.buffer lits redundant candidates with
  | some (cs, id, result) =>
    .ok (id, result) { s with clauses := setBucket s.clauses hash cs }
  | none =>
    let id := s.nextId
    let (cl, buffer) := ClauseLits.new lits s.buffer
    let c : Clause := { id := id, irred := if redundant then 0 else 1, red := if redundant then 1 else 0, lits := cl }
    .ok (id, .new) { s with
      clauses := setBucket s.clauses hash (candidates ++ [c])
      buffer := buffer
      nextId := id + 1
      clauseCount := countUp lits s.clauseCount }

/-- `store_clause`, `clauses.rs:228-294`. -/
def storeClause (lits : List Lit) (redundant : Bool) : CM (Nat × StoreResult) := do
  modifySt (ensureVars lits)
  match lits with
  | [] => do
    let s ← getSt
    modifySt fun s => { s with
      nextId := s.nextId + 1
      unsat := true }
    pure (s.nextId, .new)
  | [l] => storeUnitClause l
  | lits => storeLong lits redundant

/-- `add_clause`, `clauses.rs:153-220`. -/
def addClause (env : Env) (clause : List Lit) : CM Unit := do
  let s ← getSt
  if s.unsat then pure ()
  else
    let (tmp, taut) := copyCanonical clause
    if taut then do
      emit env (.tautologicalClause s.nextId tmp)
      modifySt fun s => { s with nextId := s.nextId + 1 }
    else do
      ensureSamplingVars tmp
      let (id, added) ← storeClause tmp false
      match added with
      | .new => emit env (.addClause id tmp)
      | .newlyIrredundant => do
        emit env (.makeIrredundant id tmp)
        let s ← getSt
        emit env (.duplicatedClause s.nextId id tmp)
        modifySt fun s => { s with nextId := s.nextId + 1 }
      | .duplicate => do
        let s ← getSt
        emit env (.duplicatedClause s.nextId id tmp)
        modifySt fun s => { s with nextId := s.nextId + 1 }

/-- The `retain` of `delete_clause`, `clauses.rs:378-404`: the kept candidates, and what was found
(`none`: no candidate with these literals; `some none`: found but its count is zero; `some (some _)`:
the deleted clause, the result and the amount of garbage). -/
def dropCandidate (buffer lits : List Lit) (redundant : Bool) :
    List Clause → List Clause × Option (Option (Nat × DeleteResult × Nat))
  | [] => ([], none)
  | c :: cs =>
    if c.lits.slice buffer ≠ lits then
      let (cs', r) := dropCandidate buffer lits redundant cs
      (c :: cs', r)
    else if (if redundant then c.red else c.irred) = 0 then (c :: cs, some none)
    else
      let c' := if redundant then { c with red := c.red - 1 } else { c with irred := c.irred - 1 }
      if c'.irred = 0 ∧ c'.red = 0 then (cs, some (some (c.id, .removed, c.lits.bufferUsed)))
      else if !redundant && c'.irred == 0 then (c' :: cs, some (some (c.id, .newlyRedundant, 0)))
      else (c' :: cs, some (some (c.id, .unchanged, 0)))

/-- One clause of the compaction loop of `collect_garbage`, `clauses.rs:444-448`. -/
def gcBucket (old : List Lit) : List Clause → List Lit → List Clause × List Lit
  | [], new => ([], new)
  | c :: cs, new =>
    let (cl, new) := ClauseLits.new (c.lits.slice old) new
    let (cs, new) := gcBucket old cs new
    ({ c with lits := cl } :: cs, new)

/-- The compaction loop, `clauses.rs:443-449`. -/
def gcBuckets (old : List Lit) : Buckets → List Lit → Buckets × List Lit
  | [], new => ([], new)
  | (h, cs) :: m, new =>
    let (cs, new) := gcBucket old cs new
    let (m, new) := gcBuckets old m new
    ((h, cs) :: m, new)

/-- `collect_garbage`, `clauses.rs:433-453`. The map itself is modified in place; the order in which
its entries are visited is `env.iter`. -/
def collectGarbage (env : Env) (s : St) : St :=
  if s.garbage * 2 ≤ s.buffer.length then s
  else
    let (m, new) := gcBuckets s.buffer (env.iter s.clauses) []
    { s with
      clauses := m
      buffer := new
      garbage := 0 }

/-- `delete_clause`, `clauses.rs:347-430`. -/
def deleteClause (env : Env) (lits : List Lit) (redundant : Bool) : CM (Nat × DeleteResult) := fun s =>
  if lits.length < 2 then fail .deleteUnit s
  else
    let hash := hashOf s.hashBits s.names lits
    let (cs, found) := dropCandidate s.buffer lits redundant (bucket s.clauses hash)
    let m := if cs.isEmpty then removeBucket s.clauses hash else setBucket s.clauses hash cs
    let s := { s with clauses := m }
    match found with
    | some (some (id, .removed, g)) =>
      .ok (id, .removed) (collectGarbage env { s with
        garbage := s.garbage + g
        clauseCount := countDown lits s.clauseCount })
    | some (some (id, r, _)) => .ok (id, r) (collectGarbage env s)
    | some none => fail (if redundant then .deleteIsIrredundant else .deleteIsRedundant) s
    | none => fail .deleteUnknown s

/-! ### RUP check (`rup.rs`) -/

/-- The part of the state the propagation loop works on. -/
structure Rup where
  units : Nat → Option UnitClause
  trail : List (Nat × Option UnitClause) := []
  trace : List TraceItem := []
  edges : List Nat := []

/-- Result of scanning the literals of a candidate. -/
inductive Scan
  | satisfied
  | open_ (count : Nat) (lit : Option Lit)
deriving DecidableEq, Repr

/-- The literal loop, `rup.rs:112-143`. -/
def scanLits : List Lit → Rup → Nat → Option Lit → Rup × Scan
  | [], r, count, u => (r, .open_ count u)
  | l :: ls, r, count, u =>
    match litValue r.units l with
    | some (true, _) => (r, .satisfied)
    | some (false, unit) =>
      match unit.id with
      | .global id =>
        scanLits ls { r with
          trail := r.trail ++ [(l.var, r.units l.var)]
          units := upd r.units l.var (some ⟨.tracePos r.trace.length, l.isNeg⟩)
          edges := r.edges ++ [r.trace.length]
          trace := r.trace ++ [⟨id, (0, 0), true⟩] } count u
      | .tracePos pos => scanLits ls { r with edges := r.edges ++ [pos] } count u
      | .inClause => scanLits ls r count u
    | none => scanLits ls r (count + 1) (some l)

/-- The candidate loop, `rup.rs:106-174`; the flag is `rup_is_unsat`. -/
def tryCandidates (buffer : List Lit) : List Clause → Rup → Rup × Bool
  | [], r => (r, false)
  | c :: cs, r =>
    let begin_ := r.edges.length
    match scanLits (c.lits.slice buffer) r 0 none with
    | (r, .satisfied) => tryCandidates buffer cs r
    | (r, .open_ _ none) =>
      ({ r with trace := r.trace ++ [⟨c.id, (begin_, r.edges.length), false⟩] }, true)
    | (r, .open_ count (some l)) =>
      if count = 1 then
        tryCandidates buffer cs { r with
          trail := r.trail ++ [(l.var, r.units l.var)]
          units := upd r.units l.var (some ⟨.tracePos r.trace.length, !l.isNeg⟩)
          trace := r.trace ++ [⟨c.id, (begin_, r.edges.length), true⟩] }
      else tryCandidates buffer cs r

/-- How the hash loop ends. -/
inductive RupEnd
  | unsat | notUnsat | noClause (hash : Nat)
deriving DecidableEq, Repr

/-- The hash loop, `rup.rs:94-175`. -/
def propHashes (m : Buckets) (buffer : List Lit) : List Nat → Rup → Rup × RupEnd
  | [], r => (r, .notUnsat)
  | h :: hs, r =>
    match bucket m h with
    | [] => (r, .noClause h)
    | c :: cs =>
      match tryCandidates buffer (c :: cs) r with
      | (r, true) => (r, .unsat)
      | (r, false) => propHashes m buffer hs r

/-- `Set all lits to false`, `rup.rs:85-92`. -/
def assumeFalse : List Lit → Rup → Rup
  | [], r => r
  | l :: ls, r => assumeFalse ls { r with
      trail := r.trail ++ [(l.var, r.units l.var)]
      units := upd r.units l.var (some ⟨.inClause, l.isNeg⟩) }

/-- `Undo temporary assignments`, `rup.rs:191-193`. -/
def undo : List (Nat × Option UnitClause) → (Nat → Option UnitClause) → (Nat → Option UnitClause)
  | [], units => units
  | (v, u) :: rest, units => upd (undo rest units) v u

/-- First literal that is already true, `rup.rs:72-82`: the id of its unit clause; `none` inside is the
`unreachable!`. -/
def findTrue (units : Nat → Option UnitClause) : List Lit → Option (Option Nat)
  | [] => none
  | l :: ls =>
    match litValue units l with
    | some (true, ⟨.global id, _⟩) => some (some id)
    | some (true, _) => some none
    | _ => findTrue units ls

/-- Clear `unused` along the edges, `rup.rs:178-185`, for positions below `n` from the last. Its result
is never read (all trace ids are reported). -/
def markUsed (edges : List Nat) : Nat → List TraceItem → List TraceItem
  | 0, t => t
  | n + 1, t =>
    let t := match t[n]? with
      | some it => if it.unused then t else
          ((edges.drop it.edges.1).take (it.edges.2 - it.edges.1)).foldl
            (fun t e => t.modify e fun i => { i with unused := false }) t
      | none => t
    markUsed edges n t

/-- `check_clause_with_hashes`, `rup.rs:39-203`. -/
def checkClauseWithHashes (env : Env) (lits : List Lit) (hashes : List Nat) : CM Unit := do
  modifySt fun s => if s.rename then rehash env s else s
  modifySt fun s => { s with
    trace := []
    edges := [] }
  let s ← getSt
  if s.trail ≠ [] then panic
  else do
    modifySt (ensureVars lits)
    let s ← getSt
    match findTrue s.units lits with
    | some (some id) => modifySt fun s => { s with traceIds := [id] }
    | some none => panic
    | none =>
      let r := assumeFalse lits { units := s.units }
      match propHashes s.clauses s.buffer hashes r with
      | (r, .noClause h) => do
        modifySt fun s => { s with
          units := r.units
          trail := r.trail
          trace := r.trace
          edges := r.edges }
        fail (.noClauseForHash h)
      | (r, e) => do
        if e = .unsat ∧ env.hasProc = true then
          modifySt fun s => { s with
            trace := markUsed r.edges r.trace.length r.trace
            edges := r.edges
            traceIds := r.trace.map (·.id) }
        else
          modifySt fun s => { s with
            trace := r.trace
            edges := r.edges }
        modifySt fun s => { s with
          units := undo r.trail r.units
          trail := [] }
        if e = .unsat then pure () else fail .atFailed

/-! ### Steps (`state.rs`) -/

/-- `check_delete_var_step`, `state.rs:150-204`. -/
def checkDeleteVar (env : Env) (v : Nat) : CM Unit := do
  modifySt (ensureVar v)
  let s ← getSt
  if (s.userVar v).isSome then fail .deletedUserVar
  else if s.clauseCount (2 * v + 1) > 0 ∨ s.clauseCount (2 * v) > 0 then fail .varHasClauses
  else do
    match s.units v with
    | some ⟨.global id, value⟩ => do
      emit env (.deleteRatClause id false [Lit.mk' v value] (Lit.mk' v value))
      modifySt fun s => { s with units := upd s.units v none }
    | some _ => panic
    | none => pure ()
    modifySt fun s => { s with
      userVar := upd s.userVar v none
      mode := upd s.mode v .sample }

/-- `check_change_sampling_mode`, `state.rs:207-257`. -/
def checkChangeSamplingMode (env : Env) (v : Nat) (sample : Bool) : CM Unit := do
  modifySt (ensureVar v)
  let s ← getSt
  let m := if sample then SamplingMode.sample else .witness
  if s.mode v ≠ m then do
    modifySt fun s => { s with mode := upd s.mode v m }
    match s.userVar v with
    | some u => emit env (.userVar v (some ⟨u, decide (m = .witness), false⟩))
    | none => if m = .sample then fail .sampleHidden else pure ()
  else pure ()

/-- `check_at_clause_step`, `state.rs:260-320`. -/
def checkAtClause (env : Env) (redundant : Bool) (clause : List Lit) (hashes : List Nat) : CM Unit := do
  let (tmp, taut) := copyCanonical clause
  if taut then fail .tautology
  else do
    checkClauseWithHashes env tmp hashes
    let (id, added) ← storeClause tmp redundant
    if !redundant then
      modifySt fun s => { s with
        prevId := some id
        prevLits := tmp }
    else pure ()
    match added with
    | .new => do
      let s ← getSt
      emit env (.atClause id redundant tmp s.traceIds)
    | .newlyIrredundant => emit env (.makeIrredundant id tmp)
    | .duplicate => pure ()

/-- The `any` of `DeleteClauseProof::Satisfied`, `state.rs:352-366`: `none` is a panic (unknown
variable), `some none` means no true literal. -/
def findSatisfied (s : St) : List Lit → Option (Option Nat)
  | [] => some none
  | l :: ls =>
    if s.nvars ≤ l.var then none
    else match litValue s.units l with
      | some (true, ⟨.global id, _⟩) => some (some id)
      | _ => findSatisfied s ls

/-- The `match proof` of `check_delete_clause_step`, `state.rs:349-390`; returns `subsumed_by`. -/
def justifyDelete (tmp : List Lit) (proof : DeleteProof) : CM (Option Nat) := do
  let s ← getSt
  match proof with
  | .redundant => pure none
  | .satisfied =>
    match findSatisfied s tmp with
    | none => panic
    | some none => fail .notSatisfied
    | some (some id) => pure (some id)
  | .simplified =>
    -- `subsumed_by_previous_irred_clause`, `state.rs:53-58`
    if s.prevId.isNone ∨ isSubset s.prevLits tmp true = false then fail .notSubsumed
    else pure s.prevId

/-- `check_delete_clause_step`, `state.rs:323-429`. -/
def checkDeleteClause (env : Env) (clause : List Lit) (proof : DeleteProof) : CM Unit := do
  let (tmp, taut) := copyCanonical clause
  if taut then fail .tautology
  else do
    let redundant := decide (proof = .redundant)
    let subsumedBy ← justifyDelete tmp proof
    modifySt fun s => { s with
      prevId := none
      prevLits := [] }
    let (id, deleted) ← deleteClause env tmp redundant
    if redundant then
      match deleted with
      | .removed => emit env (.deleteClause id tmp)
      | .unchanged => pure ()
      | .newlyRedundant => panic
    else
      match deleted with
      | .unchanged => pure ()
      | d =>
        match subsumedBy with
        | none => panic
        | some sid => emit env (.deleteAtClause id (decide (d = .newlyRedundant)) tmp [sid])

/-- `check_unit_clauses_step`, `state.rs:432-471`. -/
def checkUnitClauses (env : Env) : List (Lit × Nat) → CM Unit
  | [] => pure ()
  | (l, hash) :: us => do
    modifySt (ensureVar l.var)
    checkClauseWithHashes env [l] [hash]
    let (id, added) ← storeUnitClause l
    match added with
    | .new => do
      let s ← getSt
      emit env (.atClause id false [l] s.traceIds)
    | .duplicate => pure ()
    | .newlyIrredundant => panic
    checkUnitClauses env us

/-- First loop of `check_model_step`, `state.rs:480-494`; the set of assignments so far. -/
def modelLits : List Lit → List Lit → CM (List Lit)
  | [], seen => pure seen
  | l :: ls, seen => do
    let s ← getSt
    if s.nvars ≤ l.var then panic
    else match litValue s.units l with
      | some (false, _) => fail .modelUnit
      | _ => if l.neg ∈ seen then fail .modelConflict else modelLits ls (l :: seen)

/-- `check_model_step`, `state.rs:474-520`. -/
def checkModel (env : Env) (model : List Lit) : CM Unit := do
  let assignments ← modelLits model []
  let s ← getSt
  if !s.assumptions.all (fun l => decide (l ∈ assignments)) then fail .modelAssumption
  else if !s.clauses.all (fun b => b.2.all fun c =>
      (c.lits.slice s.buffer).any fun l => decide (l ∈ assignments)) then fail .modelClause
  else emit env (.model model)

/-- `check_failed_assumptions_step`, `state.rs:523-576`. -/
def checkFailedAssumptions (env : Env) (core : List Lit) (hashes : List Nat) : CM Unit := do
  let (tmp, direct) := copyCanonical core
  let s ← getSt
  if isSubset tmp s.assumptions false = false then fail .coreNotAssumed
  else do
    if direct then modifySt fun s => { s with traceIds := [] }
    else checkClauseWithHashes env (tmp.map Lit.neg) hashes
    let s ← getSt
    emit env (.failedAssumptions tmp s.traceIds)

/-- `check_step`, `state.rs:62-147`. -/
def checkStep (env : Env) : ProofStep → CM Unit
  | .solverVarName global solver => modifySt fun s => { s with
      buffered := s.buffered ++ [(global, solver)]
      rename := s.rename || solver.isSome }
  | .userVarName global (some user) => addUserMapping env global user
  | .userVarName global none => removeUserMapping env global
  | .deleteVar v => checkDeleteVar env v
  | .changeSamplingMode v sample => checkChangeSamplingMode env v sample
  | .addClause c => addClause env c
  | .atClause redundant c hashes => checkAtClause env redundant c hashes
  | .deleteClause c proof => checkDeleteClause env c proof
  | .unitClauses us => checkUnitClauses env us
  | .changeHashBits bits => modifySt fun s => rehash env { s with hashBits := bits }
  | .model a => checkModel env a
  | .assumptions a => do
    ensureSamplingVars a
    modifySt fun s => { s with assumptions := (copyCanonical a).1 }
    let s ← getSt
    emit env (.assumptions s.assumptions)
  | .failedAssumptions core hashes => checkFailedAssumptions env core hashes
  | .end_ => modifySt fun s => { s with ended := true }

/-- `process_unit_conflicts`, `state.rs:626-645`. -/
def processUnitConflicts (env : Env) : CM Unit := do
  let s ← getSt
  match s.unitConflict with
  | some (a, b) => emit env (.atClause s.nextId false [] [a, b])
  | none => pure ()

/-- `SelfChecker::self_check_step`, `internal.rs:23-27`. -/
def selfCheckStep (env : Env) (st : ProofStep) : CM Unit := do
  modifySt fun s => { s with step := s.step + 1 }
  checkStep env st

/-- The loop of `check_proof`, `state.rs:595-620`. -/
def checkLoop (env : Env) (fill : Nat → Nat) (bs : Bytes) (s : St) : EStateM.Result Err St Unit :=
  if s.ended then .ok () s
  else
    let s := { s with step := s.step + 1 }
    match _h : Fmt.parseStep fill bs with
    | .error .eof => .error (.proofIncomplete s.step) s
    | .error .badCode => .error (.parseError s.step) s
    | .ok (st, rest) =>
      match checkStep env st s with
      | .error e s => .error e s
      | .ok () s => checkLoop env fill rest s
termination_by bs.length
decreasing_by exact Fmt.parseStep_progress _h

/-- `check_proof`, `state.rs:579-623`. -/
def checkProof (env : Env) (fill : Nat → Nat) (bs : Bytes) : CM Unit := do
  checkLoop env fill bs
  processUnitConflicts env

end Varisat.Checker
