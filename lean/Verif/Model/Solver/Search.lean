import Verif.Model.Solver.Exec
/-!
# Model: the states inside a search (`varisat/src/{schedule,cdcl}.rs`)

The states between the steps of `schedule_step`, `conflict_step` and `find_conflict`, for all histories
of calls. Where the code decides whether to take a step (restart, reduction, collection), the relation
allows it at any time.
-/
namespace Varisat.Solver

variable {α : Type} [LinearOrder α]

/-- A place in the search. -/
inductive Phase
  /-- before `propagate` (`cdcl.rs:138`), also between the steps of `schedule_step` -/
  | ready
  /-- after `propagate` without a conflict, before `prove_units` (`cdcl.rs:140`) -/
  | propagated
  /-- after simplification, before `enqueue_assumption` (`cdcl.rs:148`) -/
  | fixpoint
  /-- after `propagate` with a conflict (`cdcl.rs:140`) -/
  | conflict (c : Conflict)

/-- The states of the searches that begin in certain states, with their place. -/
inductive SearchFrom (S : St α → Prop) : St α → Phase → Prop
  /-- `solver.rs:142-147` -/
  | start {s : St α} : S s → s.sat = .unknown → SearchFrom S { s with invoked := true } .ready
  /-- `schedule.rs:82-86` -/
  | restart {s : St α} (e : Env α) : SearchFrom S s .ready → SearchFrom S (s.restartStep e) .ready
  /-- `schedule.rs:88-90` -/
  | reduceLocals {s s' : St α} : SearchFrom S s .ready → s.reduceLocals = .ok s' → SearchFrom S s' .ready
  /-- `schedule.rs:91-93` -/
  | reduceMids {s : St α} : SearchFrom S s .ready → SearchFrom S { s with db := s.db.reduceMids } .ready
  /-- `schedule.rs:95` -/
  | collect {s : St α} {db : Db α} {p : Pt} {w : Wl} : SearchFrom S s .ready →
    s.db.collect s.p s.w = some (db, p, w) → SearchFrom S { s with db := db, p := p, w := w } .ready
  /-- `schedule.rs:98` -/
  | count {s : St α} : SearchFrom S s .ready →
    SearchFrom S { s with sched := { s.sched with conflicts := s.sched.conflicts + 1 } } .ready
  /-- `cdcl.rs:138` -/
  | propagate {s s' : St α} : SearchFrom S s .ready → s.propagate = .ok (s', none) → SearchFrom S s' .propagated
  /-- `cdcl.rs:138` -/
  | conflict {s s' : St α} {c : Conflict} : SearchFrom S s .ready → s.propagate = .ok (s', some c) →
    SearchFrom S s' (.conflict c)
  /-- `cdcl.rs:140-146` -/
  | simplify {s s1 s' : St α} {b : Bool} : SearchFrom S s .propagated → s.proveUnits = .ok (s1, b) →
    (if b then s1.unitSimplify else .ok s1) = .ok s' → SearchFrom S s' .fixpoint
  /-- `cdcl.rs:148-149` -/
  | assumption {s s' : St α} : SearchFrom S s .fixpoint → s.enqueueAssumption = .ok (s', .enqueued) →
    SearchFrom S s' .ready
  /-- `cdcl.rs:151-155` -/
  | decision {s s1 : St α} : SearchFrom S s .fixpoint → s.enqueueAssumption = .ok (s1, .done) →
    s1.makeDecision.2 = true → SearchFrom S s1.makeDecision.1 .ready
  /-- `cdcl.rs:140`, `57-99` -/
  | learn {s s1 s' : St α} {c : Conflict} {b : Bool} (e : Env α) : SearchFrom S s (.conflict c) →
    s.proveUnits = .ok (s1, b) → s1.learn e c = .ok s' → s'.sat = .unknown → SearchFrom S s' .ready

/-- The states of all searches after any calls. -/
abbrev Search (s : St α) (ph : Phase) : Prop := SearchFrom (fun s => ∃ h, Exec s h) s ph

end Varisat.Solver
