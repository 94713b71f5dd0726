import Verif.Model.Solver.Analyze
/-!
# Model: `varisat/src/{unit_simplify,binary,assumptions,decision,model,cdcl,schedule,load,solver}.rs`

Simplifications (in addition to those of the imported files).
* Loops have a bound on the number of rounds; except for `solve` it is computed from the state.
* Logging is not modelled. `solver_error` is always `None` (see `Verif.Model.Solver.Vars`).
* `u64` counters are natural numbers.
-/
namespace Varisat.Solver

variable {α : Type} [LinearOrder α]

namespace St

/-- Number of solver variables, as set by `set_var_count`, `context.rs:100-121`. -/
def varCount (s : St α) : Nat := s.vsids.count

/-- Several `emit`s. -/
def emitAll : List ProofStep → St α → Except Stop (St α)
  | [], s => .ok s
  | x :: xs, s => do
    let s ← s.emit x
    emitAll xs s

/-- `backtrack`, `assignment.rs:182-209`. -/
def backtrack (s : St α) (level : Nat) : St α :=
  let r := s.p.backtrack level
  { s with p := r.1, vsids := r.2.foldl (fun v l => v.makeAvailable l.var) s.vsids }

/-- `full_restart`, `assignment.rs:212-223`. -/
def fullRestart (s : St α) : St α :=
  { s with asm := { s.asm with levels := 0 } }.backtrack 0

/-- `propagate`, `prop.rs:23-42`. -/
def propagate (s : St α) : Except Stop (St α × Option Conflict) :=
  match s.db.enableWatchlists s.w with
  | none => .error .panic
  | some w => do
    let r ← propLoop s.bins.byLit (s.varCount + 1)
      { p := s.p, watches := w.watches, lits := s.db.lits }
    pure ({ s with
      p := r.1.p
      w := { w with watches := r.1.watches }
      db := { s.db with lits := r.1.lits } }, r.2)

/-- The units `prove_units` proves, `unit_simplify.rs:39-51`. -/
def unitProofs (s : St α) : List (Lit × Nat) :=
  s.p.trail.filterMap (fun lit =>
    let reason := s.p.reason lit.var
    if reason = .unit then none
    else some (lit, clauseHash (reason.lits s.db.lits) ^^^ litHash lit))

/-- `prove_units`, `unit_simplify.rs:18-67`: also whether there was a new unit. -/
def proveUnits (s : St α) : Except Stop (St α × Bool) :=
  if s.p.curLevel = 0 then
    let newUnit := !s.p.trail.isEmpty
    let units := s.unitProofs
    let p := s.p.trail.foldl (fun p lit => p.updateRemovedUnit lit.var) s.p
    match p.clear with
    | none => .error .panic
    | some p => do
      let s := { s with p := p }
      let s ← if units.isEmpty then pure s else s.emit (.unitClauses units)
      pure (s, newUnit)
  else .ok (s, false)

/-- The proof steps of `simplify_binary`, `binary.rs:54-97`, for one literal. -/
def binSteps (s : St α) (lit : Lit) : List ProofStep :=
  ((s.bins.byLit lit).filter (fun other =>
    (!s.p.isUnk lit || !s.p.isUnk other) && decide (lit.neg.code < other.code))).map
      (fun other => .deleteClause [lit.neg, other] .satisfied)

/-- `implied` after `simplify_binary`, `binary.rs:57-96`. -/
def binKeep (s : St α) (lit : Lit) : List Lit :=
  if s.p.isUnk lit then (s.bins.byLit lit).filter s.p.isUnk else []

/-- `simplify_binary`, `binary.rs:46-100`. The lists are visited in the order of the codes. -/
def simplifyBinary (s : St α) : Except Stop (St α) := do
  let codes := (List.range (2 * s.varCount)).map Lit.mk
  let t ← emitAll (codes.flatMap s.binSteps) s
  pure { t with bins := {
    byLit := s.binKeep
    count := (codes.map (fun l => (s.binKeep l).length)).sum / 2 } }

/-- The filter of `unit_simplify`, `unit_simplify.rs:109-180`: the new state and whether the clause is
kept. -/
def simplifyClause (s : St α) (cref : Nat) : Except Stop (St α × Bool) :=
  let lits := s.db.lits cref
  let redundant := (s.db.hdr cref).tier ≠ .irred
  if lits.any s.p.isTrue then do
    let s ← s.emit (.deleteClause lits (if redundant then .redundant else .satisfied))
    pure (s, false)
  else
    let new := lits.filter s.p.isUnk
    if new.length < lits.length then do
      let s ← s.emit (.atClause (decide (redundant ∧ new.length > 2)) new [clauseHash lits])
      let s ← s.emit (.deleteClause lits (if redundant then .redundant else .simplified))
      match new with
      | [] => .error .panic
      | [_] => .error .panic
      | [l0, l1] => pure ({ s with bins := s.bins.add l0 l1 }, false)
      | new => pure ({ s with db := { s.db with lits := put s.db.lits cref new } }, true)
    else .ok (s, true)

/-- `filter_clauses`, `db.rs:176-207`, with the filter above: the references kept. -/
def filterLoop : List Nat → St α → Except Stop (St α × List Nat)
  | [], s => .ok (s, [])
  | c :: cs, s =>
    if (s.db.hdr c).deleted then filterLoop cs s
    else do
      let r ← s.simplifyClause c
      if r.2 then do
        let q ← filterLoop cs r.1
        pure (q.1, c :: q.2)
      else filterLoop cs { r.1 with db := r.1.db.delete c }

/-- The loop over the variables, `unit_simplify.rs:184-197`, for the given indices. -/
def removeLoop : List Nat → St α → Except Stop (St α)
  | [], s => .ok s
  | v :: vs, s =>
    if (s.vars.gfs.map v).isNone then removeLoop vs s
    else do
      let s ← s.updSolverData v (fun d =>
        if (s.p.value v).isSome then { d with unit := s.p.value v, isolated := true } else d)
      match (s.vars.gfs.map v).bind s.data? with
      | none => .error .panic
      | some d =>
        if d.isolated && !d.assumed then do
          let s ← s.removeSolverVar v
          removeLoop vs s
        else removeLoop vs s

/-- `unit_simplify`, `unit_simplify.rs:85-198`. -/
def unitSimplify (s : St α) : Except Stop (St α) := do
  let s ← s.simplifyBinary
  let s := { s with w := s.w.disable }
  let r ← filterLoop s.db.clauses s
  let s := { r.1 with db := { r.1.db with clauses := r.2 } }
  removeLoop (List.range s.varCount) s

/-- State of the loop of `analyze_assumption_conflict`: failed core, hashes, flags and count. -/
structure Fail where
  core : List Lit
  hashes : List Nat := []
  flags : Nat → Bool
  count : Nat

/-- The loop `assumptions.rs:221-226`. -/
def Fail.addLit (f : Fail) (l : Lit) : Fail :=
  if f.flags l.var then f else { f with flags := put f.flags l.var true, count := f.count + 1 }

/-- The loop `assumptions.rs:201-234` over the trail, newest literal first. (The count is positive
whenever it is decremented: the loop is left when it becomes 0.) -/
def failLoop (p : Pt) (lits : Nat → List Lit) : List Lit → Fail → Fail
  | [], f => f
  | lit :: rest, f =>
    if f.flags lit.var then
      let f := { f with flags := put f.flags lit.var false, count := f.count - 1 }
      let reason := p.reason lit.var
      let f :=
        if reason = .unit then
          if p.level lit.var > 0 then { f with core := f.core ++ [lit] } else f
        else
          let rl := reason.lits lits
          let f := { f with hashes := f.hashes ++ [clauseHash rl ^^^ litHash lit] }
          rl.foldl Fail.addLit f
      if f.count = 0 then f else failLoop p lits rest f
    else failLoop p lits rest f

/-- `analyze_assumption_conflict`, `assumptions.rs:172-254`. -/
def analyzeAssumption (s : St α) (assumption : Lit) : Except Stop (St α) :=
  let f := failLoop s.p s.db.lits s.p.trail.reverse
    { core := [assumption], flags := put s.tmp assumption.var true, count := 1 }
  match f.core.mapM (mapLit? s.userFromSolver?) with
  | none => .error .panic
  | some user =>
    { s with
      tmp := f.flags
      asm := { s.asm with failedCore := f.core, userFailedCore := user } }.emit
        (.failedAssumptions f.core f.hashes.reverse)

/-- `EnqueueAssumption`, `assumptions.rs:54-58`. -/
inductive Enq
  | done | enqueued | conflict
deriving DecidableEq, Repr

/-- `Vec::swap_remove`. -/
def swapRemove (ls : List Lit) (i : Nat) : List Lit :=
  match ls.getLast? with
  | none => ls
  | some l => (ls.set i l).dropLast

/-- The loop of `enqueue_assumption`, `assumptions.rs:140-165`. -/
def enqLoop : Nat → St α → Except Stop (St α × Enq)
  | 0, _ => .error .fuel
  | n + 1, s =>
    let level := s.p.curLevel
    match s.asm.lits[level]? with
    | none => .ok (s, .done)
    | some assumption =>
      match s.p.litValue assumption with
      | some false => do
        let s ← s.analyzeAssumption assumption
        pure (s, .conflict)
      | some true => enqLoop n { s with asm := { s.asm with lits := swapRemove s.asm.lits level } }
      | none =>
        let p := s.p.newLevel.enqueue assumption .unit
        .ok ({ s with p := p, asm := { s.asm with levels := p.curLevel } }, .enqueued)

/-- `enqueue_assumption`, `assumptions.rs:126-166`. -/
def enqueueAssumption (s : St α) : Except Stop (St α × Enq) := enqLoop (s.asm.lits.length + 1) s

/-- `vsids.find(…)`, `decision.rs:28`: the first unassigned variable the queue yields. -/
def findVar (p : Pt) : Nat → Vsids α → Option Nat × Vsids α
  | 0, v => (none, v)
  | n + 1, v =>
    let r := v.next
    match r.1 with
    | none => (none, r.2)
    | some x => if p.value x = none then (some x, r.2) else findVar p n r.2

/-- `make_decision`, `decision.rs:17-39`. -/
def makeDecision (s : St α) : St α × Bool :=
  let r := findVar s.p (s.vsids.len + 1) s.vsids
  match r.1 with
  | none => ({ s with vsids := r.2 }, false)
  | some v =>
    let p := s.p.newLevel.enqueue (Lit.mk' v (s.p.last v)) .unit
    ({ s with vsids := r.2, p := p }, true)

/-- `Result<(), FoundConflict>`, `cdcl.rs:105-108`. -/
inductive Found
  | none | conflict (c : Conflict) | assumption
deriving DecidableEq, Repr

/-- The loop of `find_conflict`, `cdcl.rs:137-157`. -/
def findLoop : Nat → St α → Except Stop (St α × Found)
  | 0, _ => .error .fuel
  | n + 1, s => do
    let r ← s.propagate
    let u ← r.1.proveUnits
    match r.2 with
    | some c => pure (u.1, .conflict c)
    | none =>
      let s ← if u.2 then u.1.unitSimplify else pure u.1
      let q ← s.enqueueAssumption
      match q.2 with
      | .enqueued => findLoop n q.1
      | .conflict => pure (q.1, .assumption)
      | .done =>
        let d := q.1.makeDecision
        if d.2 then findLoop n d.1 else pure (d.1, .none)

/-- `find_conflict`, `cdcl.rs:119-158`. -/
def findConflict (s : St α) : Except Stop (St α × Found) := findLoop (s.varCount + 2) s

/-- The value `reconstruct_global_model` gives to a variable, `model.rs:61-68`. -/
def modelValue (s : St α) (global : Nat) (d : VarData) : Option Bool :=
  if d.deleted then none
  else
    match s.vars.sfg.map global with
    | some v => s.p.value v
    | none => some (d.unit.getD false)

/-- `reconstruct_global_model`, `model.rs:39-87`. -/
def reconstruct (s : St α) : St α :=
  let model := s.vars.data.mapIdx s.modelValue
  let lits := (model.zipIdx).filterMap (fun x => x.1.map (fun b => Lit.mk' x.2 b))
  { s with model := model, sat := .sat }.emitG (.model lits)

/-- Adding the learned clause, `cdcl.rs:81-99`. -/
def addLearned (e : Env α) (s : St α) (clause : List Lit) : Except Stop (St α) :=
  match clause with
  | [] => .ok { s with sat := .unsat }
  | [l] => .ok { s with p := s.p.enqueue l .unit }
  | [l0, l1] => .ok { s with bins := s.bins.add l0 l1, p := s.p.enqueue l0 (.binary l1) }
  | l0 :: _ =>
    let a := assess e.car s.p s.tmp clause
    match s.db.addClause s.w a.2 clause with
    | none => .error .panic
    | some (db, w, cref) =>
      .ok { s with db := db, w := w, tmp := a.1, p := s.p.enqueue l0 (.long cref) }

/-- `conflict_step` after a conflict was found, `cdcl.rs:57-99`. -/
def learn (e : Env α) (s : St α) (c : Conflict) : Except Stop (St α) := do
  let r ← analyze e s.p s.db.lits s.vflags s.vsids (s.varCount + 1) c
  let b := r.involved.foldl (fun b cref => bumpClause e.car s.p cref b) (s.db, s.cbump, s.tmp)
  let d := b.1.decayActivities e.car b.2.1
  let s := { s with db := d.1, cbump := d.2, tmp := b.2.2, vflags := r.flags, vsids := r.vsids }
  let s := s.backtrack r.backtrackTo
  let s ← s.emit (.atClause (decide (r.clause.length > 2)) r.clause r.hashes)
  s.addLearned e r.clause

/-- `conflict_step`, `cdcl.rs:21-100`. -/
def conflictStep (e : Env α) (s : St α) : Except Stop (St α) := do
  let r ← s.findConflict
  match r.2 with
  | .none => pure r.1.reconstruct
  | .assumption => pure { r.1 with sat := .unsatUnder }
  | .conflict c => r.1.learn e c

/-- `reduce_locals`, `reduce.rs:39-106`, with its proof steps. -/
def reduceLocals (s : St α) : Except Stop (St α) :=
  match s.db.reduceLocals s.p s.w with
  | none => .error .panic
  | some r =>
    emitAll (r.2.2.map (fun c => .deleteClause (s.db.lits c) .redundant))
      { s with db := r.1, w := r.2.1 }

/-- The restart in `schedule_step`, `schedule.rs:82-86`. -/
def restartStep (e : Env α) (s : St α) : St α :=
  if s.sched.nextRestart = s.sched.conflicts then
    let a := s.sched.luby.advance
    let s := s.backtrack s.asm.levels
    { s with sched := { s.sched with
      restarts := s.sched.restarts + 1
      nextRestart := s.sched.nextRestart + e.lubyScale * a.1.toNat
      luby := a.2 } }
  else s

/-- The call of `reduce_mids` in `schedule_step`, `schedule.rs:91-93`. -/
def midsStep (e : Env α) (s : St α) : St α :=
  if s.sched.conflicts % e.reduceMids = 0 then { s with db := s.db.reduceMids } else s

/-- The end of `schedule_step`, `schedule.rs:95-99`. -/
def searchStep (e : Env α) (s : St α) : Except Stop (St α × Bool) :=
  match s.db.collect s.p s.w with
  | none => .error .panic
  | some (db, p, w) => do
    let s ← { s with db := db, p := p, w := w }.conflictStep e
    pure ({ s with sched := { s.sched with conflicts := s.sched.conflicts + 1 } }, true)

/-- `schedule_step`, `schedule.rs:34-101`: also whether to continue. -/
def scheduleStep (e : Env α) (s : St α) : Except Stop (St α × Bool) :=
  if s.sat ≠ .unknown then .ok (s, false)
  else
    let s := s.restartStep e
    if s.sched.conflicts % e.reduceLocals = 0 then do
      let s ← s.reduceLocals
      (s.midsStep e).searchStep e
    else (s.midsStep e).searchStep e

/-- The loop of `solve`, `solver.rs:147`. -/
def solveLoop (e : Env α) : Nat → St α → Except Stop (St α)
  | 0, _ => .error .fuel
  | n + 1, s => do
    let r ← s.scheduleStep e
    if r.2 then solveLoop e n r.1 else pure r.1

/-- `solve`, `solver.rs:138-158`. -/
def solve (e : Env α) (fuel : Nat) (s : St α) : Except Stop (St α × Bool) := do
  let s ← solveLoop e fuel { s with invoked := true }
  pure (s, decide (s.sat = SatState.sat))

/-- Setting `assumed`, `assumptions.rs:92-97`, `106-111`. -/
def setAssumed (b : Bool) : List Lit → St α → Except Stop (St α)
  | [], s => .ok s
  | l :: ls, s => do
    let s ← s.updSolverData l.var (fun d => { d with assumed := b })
    setAssumed b ls s

/-- `set_assumptions`, `assumptions.rs:63-120`. -/
def assume (e : Env α) (s : St α) (user : List Lit) : Except Stop (St α) := do
  let s := s.fullRestart
  let s := { s with sat := if s.sat = .unsat then .unsat else .unknown }
  let s ← setAssumed false s.asm.lits s
  let r ← solverFromUserLits e true user s
  let s := { r.1 with asm := { r.1.asm with lits := r.2 } }
  let s ← setAssumed true r.2 s
  s.emit (.assumptions r.2)

/-- Clearing `isolated`, `load.rs:84-90`. -/
def clearIsolated : List Lit → St α → Except Stop (St α)
  | [], s => .ok s
  | l :: ls, s => do
    let s ← s.updSolverData l.var (fun d => { d with isolated := false })
    clearIsolated ls s

/-- The loop `load.rs:109-120`: the literals kept (unassigned ones, and everything from the first true
literal on), the false ones, and whether there is a true one. -/
def scanLits (p : Pt) : List Lit → List Lit × List Lit × Bool
  | [] => ([], [], false)
  | l :: ls =>
    match p.litValue l with
    | some true => (l :: ls, [], true)
    | some false => let r := scanLits p ls; (r.1, l :: r.2.1, r.2.2)
    | none => let r := scanLits p ls; (l :: r.1, r.2.1, r.2.2)

/-- The end of `load_clause`, `load.rs:148-167`. -/
def storeClause (e : Env α) (s : St α) (willConflict : Bool) (lits : List Lit) :
    Except Stop (St α) :=
  match lits with
  | [] => .ok { s with sat := .unsat }
  | [l] =>
    if willConflict then .ok { s with sat := .unsat }
    else .ok { s with p := s.p.enqueue l .unit }
  | [l0, l1] => .ok { s with bins := s.bins.add l0 l1 }
  | lits =>
    match s.db.addClause s.w { tier := .irred, activity := e.car.zero } lits with
    | none => .error .panic
    | some (db, w, _) => .ok { s with db := db, w := w }

/-- `load_clause` after the conversion to solver literals, `load.rs:63-168`. -/
def loadLits (e : Env α) (s : St α) (lits : List Lit) : Except Stop (St α) := do
  let lits := dedupLits (sortLits lits)
  let s ← s.emit (.addClause lits)
  if tautScan none lits then pure s
  else
    let s ← if lits.length > 1 then clearIsolated lits s else pure s
    let r := scanLits s.p lits
    let s := { s with p := r.2.1.foldl (fun p l => p.resurrect l.neg) s.p }
    let lits := r.1 ++ r.2.1
    if r.2.2 then
      if lits.length > 1 then s.emit (.deleteClause lits .satisfied) else pure s
    else s.storeClause e r.1.isEmpty lits

/-- `load_clause`, `load.rs:25-168`. -/
def loadClause (e : Env α) (s : St α) (user : List Lit) : Except Stop (St α) :=
  if s.sat = .unsat then .ok s
  else do
    let s := { s with sat := if s.sat = SatState.sat then .unknown else s.sat, formulaEmpty := false }
    let s := s.fullRestart
    let r ← solverFromUserLits e true user s
    r.1.loadLits e r.2

/-- `witness_var`, `sample_var`, `hide_var`, `solver.rs:98-123`. -/
def setUserMode (e : Env α) (s : St α) (user : Nat) (mode : Mode) : Except Stop (St α) := do
  let r ← s.globalFromUser e user false
  let q ← r.1.setMode e r.2 mode
  pure q.1

/-- `model`, `solver.rs:187-207`: `none` is a panic (index out of range). -/
def modelLits (s : St α) : Option (Option (List Lit)) :=
  if s.sat = .sat then
    ((List.range s.vars.gfu.len).filterMap (fun u =>
      (s.vars.gfu.map u).map (fun g => s.model[g]?.map (fun v => v.map (fun b => Lit.mk' u b))))).mapM
        id |>.map (fun ls => some (ls.filterMap id))
  else some none

/-- `failed_core`, `solver.rs:212-218`. -/
def failedCore (s : St α) : Option (List Lit) :=
  match s.sat with
  | .unsatUnder => some s.asm.userFailedCore
  | .unsat => some []
  | _ => none

end St

/-- A call of the public interface that changes the solver. -/
inductive Op
  | addClause (lits : List Lit) | newVar | assume (lits : List Lit) | solve (fuel : Nat)
  | witnessVar (user : Nat) | sampleVar (user : Nat) | hideVar (user : Nat) | observe
deriving DecidableEq, Repr

namespace St

/-- One call, with its result for `newVar`, `solve` and `observe`. -/
def step (e : Env α) (s : St α) : Op → Except Stop (St α × List Nat)
  | .addClause c => do
    let s ← s.loadClause e c
    pure (s, [])
  | .newVar => do
    let r ← { s with formulaEmpty := false }.newUserVar e
    pure (r.1, [r.2])
  | .assume ls => do
    let s ← s.assume e ls
    pure (s, [])
  | .solve fuel => do
    let r ← s.solve e fuel
    pure (r.1, [if r.2 then 1 else 0])
  | .witnessVar u => do
    let s ← s.setUserMode e u .witness
    pure (s, [])
  | .sampleVar u => do
    let s ← s.setUserMode e u .sample
    pure (s, [])
  | .hideVar u => do
    let s ← s.setUserMode e u .hide
    pure (s, [])
  | .observe => s.observeInternal e

end St
end Varisat.Solver
