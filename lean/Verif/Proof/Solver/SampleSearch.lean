import Verif.Model.Solver.Search
import Verif.Proof.Solver.Sample
/-!
# Concrete states inside a search, for the examples
-/
namespace Varisat.Solver.Sample

/-- A step of the search. -/
inductive Move
  | propagate | simplify | assumption | decision | learn | reduceLocals | reduceMids | collect | restart | count
deriving DecidableEq

/-- Takes the step. -/
def move (m : Move) (s : St Nat) (ph : Phase) : Option (St Nat × Phase) :=
  match m, ph with
  | .propagate, .ready =>
    match s.propagate with
    | .ok (s', none) => some (s', .propagated)
    | .ok (s', some c) => some (s', .conflict c)
    | .error _ => none
  | .simplify, .propagated =>
    match s.proveUnits with
    | .ok (s1, b) =>
      match (if b then s1.unitSimplify else .ok s1) with
      | .ok s' => some (s', .fixpoint)
      | .error _ => none
    | .error _ => none
  | .assumption, .fixpoint =>
    match s.enqueueAssumption with
    | .ok (s', .enqueued) => some (s', .ready)
    | _ => none
  | .decision, .fixpoint =>
    match s.enqueueAssumption with
    | .ok (s1, .done) => if s1.makeDecision.2 then some (s1.makeDecision.1, .ready) else none
    | _ => none
  | .learn, .conflict c =>
    match s.proveUnits with
    | .ok (s1, _) =>
      match s1.learn env c with
      | .ok s' => if s'.sat = .unknown then some (s', .ready) else none
      | .error _ => none
    | .error _ => none
  | .reduceLocals, .ready =>
    match s.reduceLocals with
    | .ok s' => some (s', .ready)
    | .error _ => none
  | .reduceMids, .ready => some ({ s with db := s.db.reduceMids }, .ready)
  | .collect, .ready =>
    match s.db.collect s.p s.w with
    | some (db, p, w) => some ({ s with db := db, p := p, w := w }, .ready)
    | none => none
  | .restart, .ready => some (s.restartStep env, .ready)
  | .count, .ready => some ({ s with sched := { s.sched with conflicts := s.sched.conflicts + 1 } }, .ready)
  | _, _ => none

theorem move_search {m : Move} {s s' : St Nat} {ph ph' : Phase} (h : Search s ph) (k : move m s ph = some (s', ph')) :
    Search s' ph' := by
  cases m <;> cases ph <;> try (simp only [move] at k; cases k; done)
  · simp only [move] at k
    split at k
    · rename_i hp; cases k; exact h.propagate hp
    · rename_i hp; cases k; exact h.conflict hp
    · cases k
  · simp only [move] at k
    split at k
    · rename_i hp
      split at k
      · rename_i hq; cases k; exact h.simplify hp hq
      · cases k
    · cases k
  · simp only [move] at k
    split at k
    · rename_i hp; cases k; exact h.assumption hp
    · cases k
  · simp only [move] at k
    split at k
    · rename_i hp
      split at k
      · rename_i hd; cases k; exact h.decision hp hd
      · cases k
    · cases k
  · simp only [move] at k
    split at k
    · rename_i hp
      split at k
      · rename_i hl
        split at k
        · rename_i hu; cases k; exact h.learn env hp hl hu
        · cases k
      · cases k
    · cases k
  · simp only [move] at k
    split at k
    · rename_i hp; cases k; exact h.reduceLocals hp
    · cases k
  · simp only [move] at k
    cases k; exact h.reduceMids
  · simp only [move] at k
    split at k
    · rename_i hp; cases k; exact h.collect hp
    · cases k
  · simp only [move] at k
    cases k; exact h.restart env
  · simp only [move] at k
    cases k; exact h.count

/-- Several steps. -/
def moves : List Move → St Nat → Phase → Option (St Nat × Phase)
  | [], s, ph => some (s, ph)
  | m :: ms, s, ph => (move m s ph).bind (fun x => moves ms x.1 x.2)

theorem moves_search : ∀ {ms : List Move} {s s' : St Nat} {ph ph' : Phase}, Search s ph →
    moves ms s ph = some (s', ph') → Search s' ph'
  | [], _, _, _, _, h, k => by cases k; exact h
  | m :: ms, s, s', ph, ph', h, k => by
    rw [moves] at k
    cases hm : move m s ph with
    | none => rw [hm] at k; cases k
    | some x => rw [hm] at k; exact moves_search (move_search h hm) k

/-- Something read from a state inside the search after some calls. -/
def peek {β : Type} (f : St Nat → Phase → β) (ops : List Op) (ms : List Move) : Option β :=
  match go ops with
  | .ok (s, _) => if s.sat = .unknown then (moves ms { s with invoked := true } .ready).map (fun x => f x.1 x.2) else none
  | .error _ => none

theorem peek_search {β : Type} {f : St Nat → Phase → β} {ops : List Op} {ms : List Move} {x : β}
    (k : peek f ops ms = some x) : ∃ (s : St Nat) (ph : Phase), Search s ph ∧ f s ph = x := by
  unfold peek at k
  cases hg : go ops with
  | error e => rw [hg] at k; cases k
  | ok q =>
    obtain ⟨s, h⟩ := q
    rw [hg] at k
    simp only at k
    split at k
    · rename_i hu
      cases hm : moves ms { s with invoked := true } .ready with
      | none => rw [hm] at k; cases k
      | some y =>
        obtain ⟨s', ph'⟩ := y
        rw [hm] at k
        exact ⟨s', ph', moves_search (.start ⟨_, (go_exec hg).1⟩ hu) hm, Option.some.inj k⟩
    · cases k

end Varisat.Solver.Sample
