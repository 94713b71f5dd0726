import Verif.Model.Solver.Db
import Verif.Model.ProofFormat
import Verif.Model.Luby
/-!
# Model: `varisat/src/context.rs` (the solver state), `varisat/src/variables.rs`,
`varisat/src/variables/{data,var_map}.rs` and the step mapping of `varisat/src/proof.rs`

Simplifications.
* A `VarMap` is a partial function and a length. The sentinel index of `NO_VAR_IDX` is `none`.
* The iteration order of a `HashSet` is not known; which free index is taken is decided by the
  parameter `Env.pick`, which may depend on the kind of set, on the number of proof steps so far and on
  the set (a list in insertion order).
* Proof output and self checking never fail here: each step given to `proof::add_step` is appended,
  mapped to global variables, to the list `log`. (Failing output is a separate model.) Steps are
  recorded as with self checking enabled, i.e. `is_active`, `clause_hashes_required` and
  `models_in_proof` are true; they do not influence anything else in the state.
-/
namespace Varisat.Solver

variable {α : Type} [LinearOrder α]

/-- The parameters of the model. -/
structure Env (α : Type) where
  /-- arithmetic of the variable activities -/
  ar : Arith α
  /-- arithmetic of the clause activities -/
  car : Arith α
  /-- `freelist.iter().next()`; the first argument is 0 for the global, 1 for the solver and 2 for the
  user free list, the second the number of proof steps so far -/
  pick : Nat → Nat → List Nat → Option Nat
  /-- `SolverConfig`, `config.rs:6-31` (the fields not hidden in the arithmetic) -/
  reduceLocals : Nat
  reduceMids : Nat
  lubyScale : Nat

/-- `VarMap`, `var_map.rs:9-11`. -/
structure VarMap where
  map : Nat → Option Nat := fun _ => none
  len : Nat := 0

/-- `insert`, `var_map.rs:29-35`. -/
def VarMap.insert (m : VarMap) (into from_ : Nat) : VarMap :=
  { map := put m.map from_ (some into), len := max m.len (from_ + 1) }

/-- `remove`, `var_map.rs:40-44`. -/
def VarMap.remove (m : VarMap) (from_ : Nat) : VarMap := { m with map := put m.map from_ none }

/-- `SamplingMode`, `data.rs:21-25`. -/
inductive Mode
  | sample | witness | hide
deriving DecidableEq, Repr

/-- `VarData`, `data.rs:31-47`, with its `Default`, `data.rs:49-59`. -/
structure VarData where
  mode : Mode := .hide
  unit : Option Bool := none
  isolated : Bool := true
  assumed : Bool := false
  deleted : Bool := true
deriving DecidableEq, Repr

/-- `VarData::user_default`, `data.rs:63-69`. -/
def VarData.userDefault : VarData := { mode := .sample, deleted := false }

/-- `Variables`, `variables.rs:22-48`: the two directions of `global_from_user` and
`solver_from_global`, the free lists and `var_data`. -/
structure Vars where
  gfu : VarMap := {}
  ufg : VarMap := {}
  sfg : VarMap := {}
  gfs : VarMap := {}
  userFree : List Nat := []
  globalFree : List Nat := []
  solverFree : List Nat := []
  data : List VarData := []

/-- `SatState`, `state.rs:6-11`. -/
inductive SatState
  | unknown | sat | unsat | unsatUnder
deriving DecidableEq, Repr

/-- `Assumptions`, `assumptions.rs:18-24`. -/
structure Assumptions where
  lits : List Lit := []
  failedCore : List Lit := []
  userFailedCore : List Lit := []
  levels : Nat := 0

/-- `Schedule`, `schedule.rs:26-31`. -/
structure Schedule where
  conflicts : Nat := 0
  nextRestart : Nat := 0
  restarts : Nat := 0
  luby : Luby := {}

/-- `Context`, `context.rs:58-97` (without the parts explained above). -/
structure St (α : Type) where
  p : Pt := {}
  bins : Bins := {}
  w : Wl := {}
  db : Db α
  cbump : α
  vsids : Vsids α
  /-- `AnalyzeConflict::var_flags` -/
  vflags : Nat → Bool := fun _ => false
  /-- `TmpFlags` -/
  tmp : Nat → Bool := fun _ => false
  asm : Assumptions := {}
  vars : Vars := {}
  /-- `Model::assignment` -/
  model : List (Option Bool) := []
  sat : SatState := .unknown
  formulaEmpty : Bool := true
  invoked : Bool := false
  sched : Schedule := {}
  log : List ProofStep := []

/-- `Context::default`. -/
def St.new (e : Env α) : St α where
  db := { hdr := fun _ => { activity := e.car.zero } }
  cbump := e.car.one
  vsids := Vsids.new e.ar

/-- `lit.map_var(f)` for a partial `f`. -/
def mapLit? (f : Nat → Option Nat) (l : Lit) : Option Lit :=
  (f l.var).map (fun v => Lit.mk' v (!l.isNeg))

/-- `MapStep::map`, `map_step.rs:24-127`, with the hashes unchanged. -/
def mapStep? (f : Nat → Option Nat) : ProofStep → Option ProofStep
  | .addClause c => (c.mapM (mapLit? f)).map .addClause
  | .atClause r c h => (c.mapM (mapLit? f)).map (fun c => .atClause r c h)
  | .unitClauses us =>
    (us.mapM (fun u => (mapLit? f u.1).map (fun l => (l, u.2)))).map .unitClauses
  | .deleteClause c p => (c.mapM (mapLit? f)).map (fun c => .deleteClause c p)
  | .model a => (a.mapM (mapLit? f)).map .model
  | .assumptions a => (a.mapM (mapLit? f)).map .assumptions
  | .failedAssumptions c h => (c.mapM (mapLit? f)).map (fun c => .failedAssumptions c h)
  | s => some s

namespace St

/-- `proof::add_step`, `proof.rs:164-214`, with `solver_vars` true. -/
def emit (s : St α) (step : ProofStep) : Except Stop (St α) :=
  match mapStep? s.vars.gfs.map step with
  | some step => .ok { s with log := s.log ++ [step] }
  | none => .error .panic

/-- `proof::add_step` with `solver_vars` false. -/
def emitG (s : St α) (step : ProofStep) : St α := { s with log := s.log ++ [step] }

/-- `var_data[global]`. -/
def data? (s : St α) (global : Nat) : Option VarData := s.vars.data[global]?

/-- `var_data_solver_mut`, `variables.rs:170-176`, followed by an update. -/
def updSolverData (s : St α) (solver : Nat) (f : VarData → VarData) : Except Stop (St α) :=
  match s.vars.gfs.map solver with
  | none => .error .panic
  | some g =>
    if g < s.vars.data.length then
      .ok { s with vars := { s.vars with data := s.vars.data.modify g f } }
    else .error .panic

/-- `next_unmapped_global`, `variables.rs:189-195`. -/
def nextGlobal (e : Env α) (s : St α) : Nat :=
  (e.pick 0 s.log.length s.vars.globalFree).getD s.vars.data.length

/-- `next_unmapped_solver`, `variables.rs:198-204`. -/
def nextSolver (e : Env α) (s : St α) : Nat :=
  (e.pick 1 s.log.length s.vars.solverFree).getD s.vars.gfs.len

/-- `next_unmapped_user`, `variables.rs:207-213`. -/
def nextUser (e : Env α) (s : St α) : Nat :=
  (e.pick 2 s.log.length s.vars.userFree).getD s.vars.gfu.len

/-- `*variables.var_data_global_mut(global) = VarData::user_default()`, `variables.rs:162-167`,
`252`. -/
def setUserDefault (data : List VarData) (global : Nat) : List VarData :=
  (data ++ List.replicate (global + 1 - data.length) ({} : VarData)).set global .userDefault

/-- The global index for a new user variable, `variables.rs:242-250`. -/
def chooseGlobal (e : Env α) (s : St α) (user : Nat) : Nat :=
  match s.data? user with
  | some d => if d.deleted then user else s.nextGlobal e
  | none => user

/-- `global_from_user` for an index not above the watermark, `variables.rs:233-269`. -/
def globalFromUser1 (e : Env α) (s : St α) (user : Nat) (sampling : Bool) :
    Except Stop (St α × Nat) :=
  match s.vars.gfu.map user with
  | some global =>
    if sampling ∧ ((s.data? global).map (·.mode)) ≠ some .sample then .error .panic
    else .ok (s, global)
  | none =>
    let global := s.chooseGlobal e user
    let v := s.vars
    let s := { s with vars := { v with
      data := setUserDefault v.data global
      gfu := v.gfu.insert global user
      ufg := v.ufg.insert user global
      globalFree := v.globalFree.filter (· ≠ global)
      userFree := v.userFree.filter (· ≠ user) } }
    .ok (s.emitG (.userVarName global (some user)), global)

/-- The loop `variables.rs:228-230`, for the given number of indices. -/
def fillUsers (e : Env α) : Nat → Nat → St α → Except Stop (St α)
  | 0, _, s => .ok s
  | n + 1, index, s => do
    let r ← s.globalFromUser1 e index false
    fillUsers e n (index + 1) r.1

/-- `global_from_user`, `variables.rs:219-270`. -/
def globalFromUser (e : Env α) (s : St α) (user : Nat) (sampling : Bool) :
    Except Stop (St α × Nat) := do
  let s ← fillUsers e (user - s.vars.gfu.len) s.vars.gfu.len s
  s.globalFromUser1 e user sampling

/-- `initialize_solver_var`, `variables.rs:483-507`, and `decision::initialize_var`,
`decision.rs:47-53`. -/
def initSolverVar (e : Env α) (s : St α) (solver global : Nat) : Except Stop (St α) :=
  match s.data? global with
  | none => .error .panic
  | some d =>
    let p := { s.p with value := put s.p.value solver d.unit }
    let p := if d.unit.isSome then p.updateRemovedUnit solver else p
    match s.vsids.reset e.ar solver with
    | none => .error .panic
    | some vsids =>
      .ok { s with p := p, vsids := if d.unit.isNone then vsids.makeAvailable solver else vsids }

/-- `solver_from_global`, `variables.rs:275-325`. -/
def solverFromGlobal (e : Env α) (s : St α) (global : Nat) : Except Stop (St α × Nat) :=
  match s.vars.sfg.map global with
  | some solver => .ok (s, solver)
  | none => do
    let solver := s.nextSolver e
    let v := s.vars
    let gfs := v.gfs.insert global solver
    let vsids := if gfs.len > v.gfs.len then s.vsids.setVarCount e.ar gfs.len else s.vsids
    let s := { s with
      vsids := vsids
      vars := { v with
        sfg := v.sfg.insert solver global
        gfs := gfs
        solverFree := v.solverFree.filter (· ≠ solver) } }
    let s ← s.initSolverVar e solver global
    pure (s.emitG (.solverVarName global (some solver)), solver)

/-- `solver_from_user`, `variables.rs:330-349`. -/
def solverFromUser (e : Env α) (s : St α) (user : Nat) (sampling : Bool) :
    Except Stop (St α × Nat) := do
  let r ← s.globalFromUser e user sampling
  r.1.solverFromGlobal e r.2

/-- `solver_from_user_lits`, `variables.rs:365-387`. -/
def solverFromUserLits (e : Env α) (sampling : Bool) :
    List Lit → St α → Except Stop (St α × List Lit)
  | [], s => .ok (s, [])
  | l :: ls, s => do
    let r ← s.solverFromUser e l.var sampling
    let q ← solverFromUserLits e sampling ls r.1
    pure (q.1, Lit.mk' r.2 (!l.isNeg) :: q.2)

/-- `delete_global_if_unused`, `variables.rs:540-570`. -/
def deleteGlobal (s : St α) (global : Nat) : Except Stop (St α) :=
  if (s.vars.ufg.map global).isSome then .ok s
  else if (s.vars.sfg.map global).isSome then .ok s
  else
    match s.data? global with
    | none => .error .panic
    | some d =>
      if d.mode ≠ .hide then .error .panic
      else if !d.isolated then .ok s
      else
        let s := { s with vars := { s.vars with
          data := s.vars.data.set global { d with deleted := true }
          globalFree := s.vars.globalFree ++ [global] } }
        .ok (s.emitG (.deleteVar global))

/-- `remove_solver_var`, `variables.rs:512-537`, and `decision::remove_var`, `decision.rs:56-58`. -/
def removeSolverVar (s : St α) (solver : Nat) : Except Stop (St α) :=
  match s.vars.gfs.map solver with
  | none => .error .panic
  | some global =>
    let s := { s with
      vsids := s.vsids.makeUnavailable solver
      vars := { s.vars with
        gfs := s.vars.gfs.remove solver
        sfg := s.vars.sfg.remove global
        solverFree := s.vars.solverFree ++ [solver] } }
    (s.emitG (.solverVarName global none)).deleteGlobal global

/-- `set_sampling_mode`, `variables.rs:395-462`. -/
def setMode (e : Env α) (s : St α) (global : Nat) (mode : Mode) :
    Except Stop (St α × Option Nat) :=
  match s.data? global with
  | none => .error .panic
  | some d =>
    if d.deleted then .error .panic
    else if d.assumed then .error .panic
    else if d.mode = mode then .ok (s, none)
    else
      let s := { s with vars := { s.vars with
        data := s.vars.data.set global { d with mode := mode } } }
      let s := if mode ≠ .hide then s.emitG (.changeSamplingMode global (mode == .sample)) else s
      if d.mode = .hide then
        let user := s.nextUser e
        let s := { s with vars := { s.vars with
          ufg := s.vars.ufg.insert user global
          gfu := s.vars.gfu.insert global user
          userFree := s.vars.userFree.filter (· ≠ user) } }
        .ok (s.emitG (.userVarName global (some user)), some user)
      else if mode = .hide then do
        let s := { s with vars :=
          match s.vars.ufg.map global with
          | some user => { s.vars with
              ufg := s.vars.ufg.remove global
              gfu := s.vars.gfu.remove user
              userFree := s.vars.userFree ++ [user] }
          | none => s.vars }
        let s ← (s.emitG (.userVarName global none)).deleteGlobal global
        pure (s, none)
      else .ok (s, none)

/-- The loop of `observe_internal_vars`, `variables.rs:470-478`, over the given indices. -/
def observeLoop (e : Env α) : List Nat → St α → Except Stop (St α × List Nat)
  | [], s => .ok (s, [])
  | g :: gs, s =>
    match s.data? g with
    | none => .error .panic
    | some d =>
      if !d.deleted && d.mode == .hide then do
        let r ← s.setMode e g .witness
        let q ← observeLoop e gs r.1
        match r.2 with
        | some user => pure (q.1, user :: q.2)
        | none => .error .panic
      else observeLoop e gs s

/-- `observe_internal_vars`, `variables.rs:465-480`. -/
def observeInternal (e : Env α) (s : St α) : Except Stop (St α × List Nat) :=
  observeLoop e (List.range s.vars.data.length) s

/-- `new_user_var`, `variables.rs:355-362`. -/
def newUserVar (e : Env α) (s : St α) : Except Stop (St α × Nat) := do
  let user := s.nextUser e
  let r ← s.globalFromUser e user false
  pure (r.1, user)

/-- `existing_user_from_solver`, `variables.rs:149-159`. -/
def userFromSolver? (s : St α) (solver : Nat) : Option Nat :=
  (s.vars.gfs.map solver).bind s.vars.ufg.map

end St
end Varisat.Solver
