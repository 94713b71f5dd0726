import Verif.Proof.Lenient
import Verif.Proof.ProofOut
import Verif.Proof.Solver.JointRun
/-!
# Failing processors: the proof output and the solver
-/
namespace Varisat.Out

/-- The same surroundings with processors that accept everything. -/
def Env.lenient (env : Env) : Env := { env with chk := env.chk.lenient }

/-- A processor has returned an error. -/
structure Dead (o : Sess) : Prop where
  err : o.error = some .processor
  checker : o.proof.checker = none
  format : o.proof.format = none

variable {env : Env}

theorem tell_near {m m' : Checker.CM Unit} (h : Checker.Near env.chk m m') (o : Sess) :
    tell o m = tell o m' ∨ (∃ o', tell o m = some o' ∧ Dead o') ∧ env.chk.Fails := by
  unfold tell
  cases hc : o.proof.checker with
  | none => exact .inl rfl
  | some c =>
    simp only
    rcases h c with h | ⟨⟨K, h⟩, hf⟩
    · rw [h]; exact .inl rfl
    · rw [h]; exact .inr ⟨⟨_, rfl, rfl, rfl, rfl⟩, hf⟩

theorem writeOut_lenient (o : Sess) (st : ProofStep) : writeOut env.lenient o st = writeOut env o st := rfl

theorem addStep_near (o : Sess) (st : ProofStep) :
    addStep env o st = addStep env.lenient o st ∨ (∃ o', addStep env o st = some o' ∧ Dead o') ∧ env.chk.Fails := by
  unfold addStep
  rw [writeOut_lenient]
  split
  · exact .inl rfl
  · cases hw : writeOut env o st with
    | none => exact .inl rfl
    | some q =>
      obtain ⟨o1, ok⟩ := q
      cases ok with
      | false => exact .inl rfl
      | true => exact tell_near (Checker.selfCheckStep_near st) o1

theorem addClause_near (o : Sess) (c : List Lit) :
    addClause env o c = addClause env.lenient o c ∨ (∃ o', addClause env o c = some o' ∧ Dead o') ∧ env.chk.Fails := by
  unfold addClause
  split
  · exact addStep_near o _
  · rcases tell_near (Checker.addClause_near c) o with h | ⟨⟨o1, h, hd⟩, hf⟩
    · rw [h]; exact .inl rfl
    · rw [h]
      refine .inr ⟨⟨_, rfl, ?_⟩, hf⟩
      split
      · exact ⟨hd.err, hd.checker, hd.format⟩
      · exact hd

theorem Ev.near (ev : Ev) (o : Sess) :
    ev.exec env o = ev.exec env.lenient o ∨ (∃ o', ev.exec env o = some o' ∧ Dead o') ∧ env.chk.Fails := by
  cases ev with
  | step st => exact addStep_near o st
  | clause c => exact addClause_near o c
  | sat v => exact .inl rfl
  | nonEmpty => exact .inl rfl

theorem Dead.addStep {o : Sess} (h : Dead o) (st : ProofStep) : addStep env o st = some o := by
  unfold Out.addStep
  rw [if_pos (by simp [h.err])]

theorem Dead.tell {o : Sess} (h : Dead o) (m : Checker.CM Unit) : tell o m = some o := by
  unfold Out.tell
  rw [h.checker]

theorem Dead.exec {o : Sess} (h : Dead o) (ev : Ev) : ∃ o', ev.exec env o = some o' ∧ Dead o' := by
  cases ev with
  | step st => exact ⟨_, h.addStep st, h⟩
  | clause c =>
    unfold Ev.exec Out.addClause
    simp only
    split
    · exact ⟨_, h.addStep _, h⟩
    · rw [h.tell]
      refine ⟨_, rfl, ?_⟩
      split
      · exact ⟨h.err, h.checker, h.format⟩
      · exact h
  | sat v => exact ⟨_, rfl, h.err, h.checker, h.format⟩
  | nonEmpty => exact ⟨_, rfl, h.err, h.checker, h.format⟩

theorem Dead.runEvs : ∀ (L : List Ev) {o : Sess}, Dead o → ∃ o', runEvs env L o = some o' ∧ Dead o'
  | [], o, h => ⟨_, rfl, h⟩
  | ev :: L, o, h => by
    obtain ⟨o1, e1, h1⟩ := h.exec (env := env) ev
    obtain ⟨o2, e2, h2⟩ := Dead.runEvs L h1
    exact ⟨o2, by unfold Out.runEvs; rw [e1]; exact e2, h2⟩

theorem runEvs_near : ∀ (L : List Ev) (o : Sess),
    runEvs env L o = runEvs env.lenient L o ∨ (∃ o', runEvs env L o = some o' ∧ Dead o') ∧ env.chk.Fails
  | [], o => .inl rfl
  | ev :: L, o => by
    unfold runEvs
    rcases ev.near (env := env) o with h | ⟨⟨o1, h, hd⟩, hf⟩
    · rw [h]
      cases ev.exec env.lenient o with
      | none => exact .inl rfl
      | some o1 => exact runEvs_near L o1
    · rw [h]
      exact .inr ⟨hd.runEvs L, hf⟩

theorem Dead.solveFinished {o : Sess} (h : Dead o) : solveFinished env o = some o := by
  unfold Out.solveFinished flush
  simp only [h.format, Option.isSome_none, Bool.false_eq_true, if_false]
  exact h.tell _

theorem solveFinished_near (o : Sess) :
    solveFinished env o = solveFinished env.lenient o ∨ (∃ o', solveFinished env o = some o' ∧ Dead o') ∧ env.chk.Fails :=
  tell_near Checker.processUnitConflicts_near (flush env o)

/-- Closing does not depend on the processors: they are told nothing. -/
theorem close_lenient (o : Sess) : close env.lenient o = close env o := rfl

end Varisat.Out

namespace Varisat.Solver

variable {α : Type} [LinearOrder α] {e : Env α} {env : Out.Env}

/-- The error of a processor is returned by `solve`; other calls keep it. -/
def Gone (op : Op) (o : Out.Sess) (er : Option Out.SErr) : Prop :=
  match op with
  | .solve _ => er = some .processor ∧ o.error = none ∧ o.proof.checker = none ∧ o.proof.format = none ∧ o.invalid = true
  | _ => er = none ∧ Out.Dead o

theorem gone_take {o : Out.Sess} (n : Nat) (h : Out.Dead o) : Gone (.solve n) (Out.takeError o).1 (Out.takeError o).2 := by
  unfold Gone Out.takeError
  rw [h.err]
  exact ⟨rfl, rfl, h.checker, h.format, rfl⟩

theorem joint_gone {s s' : St α} {o : Out.Sess} {op : Op} {r : List Nat} (hd : Out.Dead o) (hv : o.invalid = false) (hs : s.step e op = .ok (s', r)) :
    ∃ o' er, s.joint e env op o = .ok (s', o', r, er) ∧ Gone op o' er := by
  unfold St.joint
  rw [hs]
  cases op
  case solve n =>
    simp only
    rw [if_neg (by simp [hv])]
    obtain ⟨o1, e1, h1⟩ := Out.Dead.runEvs (env := env) ((s'.log.drop s.log.length).map toEv) (o := { o with invoked := true }) ⟨hd.err, hd.checker, hd.format⟩
    unfold feed
    rw [e1]
    simp only [h1.solveFinished]
    exact ⟨_, _, rfl, gone_take n h1⟩
  all_goals
    obtain ⟨o1, e1, h1⟩ := hd.runEvs (env := env) ((s'.log.drop s.log.length).map toEv)
    unfold feed
    simp only [e1]
    exact ⟨_, _, rfl, rfl, h1⟩

/-- One call with processors that may fail. -/
theorem joint_near (s : St α) (o : Out.Sess) (op : Op) :
    s.joint e env op o = s.joint e env.lenient op o ∨
    (∃ s' r o' er, s.step e op = .ok (s', r) ∧ s.joint e env op o = .ok (s', o', r, er) ∧ Gone op o' er) ∧ env.chk.Fails := by
  unfold St.joint
  cases hs : s.step e op with
  | error x => exact .inl rfl
  | ok q =>
    obtain ⟨s', r⟩ := q
    cases op
    case solve n =>
      simp only
      split
      · exact .inl rfl
      · unfold feed
        rcases Out.runEvs_near (env := env) ((s'.log.drop s.log.length).map toEv) { o with invoked := true } with h | ⟨⟨o1, h, hd⟩, hf⟩
        · rw [h]
          cases hL : Out.runEvs env.lenient ((s'.log.drop s.log.length).map toEv) { o with invoked := true } with
          | none => exact .inl rfl
          | some o1 =>
            simp only
            rcases Out.solveFinished_near (env := env) o1 with h | ⟨⟨o2, h, hd⟩, hf⟩
            · rw [h]; exact .inl rfl
            · rw [h]; exact .inr ⟨⟨_, _, _, _, rfl, rfl, gone_take n hd⟩, hf⟩
        · rw [h]
          simp only [hd.solveFinished]
          exact .inr ⟨⟨_, _, _, _, rfl, rfl, gone_take n hd⟩, hf⟩
    all_goals
      simp only
      unfold feed
      rcases Out.runEvs_near (env := env) ((s'.log.drop s.log.length).map toEv) o with h | ⟨⟨o1, h, hd⟩, hf⟩
      · rw [h]; exact .inl rfl
      · rw [h]; exact .inr ⟨⟨_, _, _, _, rfl, rfl, rfl, hd⟩, hf⟩

end Varisat.Solver

namespace Varisat.Solver
open Api

variable {α : Type} [LinearOrder α] {env : Out.Env} {f : Option Out.Format} {check : Bool}

theorem joint_held {e : Env α} {s s' : St α} {o o' : Out.Sess} {op : Op} {r : List Nat} (hi : o.error ≠ some .interrupted)
    (h : s.joint e env op o = .ok (s', o', r, none)) : Out.Held o o' := by
  unfold St.joint at h
  split at h
  · cases h
  · split at h
    · split at h
      · cases h
      · split at h
        · cases h
        · rename_i o1 h1
          split at h
          · cases h
          · rename_i o2 h2
            have k1 : Out.Held o o1 := ((Out.Held.refl hi).congr (u := { o with invoked := true }) rfl rfl).trans (Out.runEvs_held (s := { o with invoked := true }) hi h1)
            have k2 := k1.trans (Out.flush_held (e := env) k1.err)
            have k3 := k2.trans (Out.tell_held k2.err h2)
            have h := Except.ok.inj h
            simp only [Prod.mk.injEq] at h
            obtain ⟨-, rfl, -, h⟩ := h
            unfold Out.takeError at h ⊢
            split at h
            · cases h
            · exact k3
    · split at h
      · cases h
      · rename_i o1 h1
        have h := Except.ok.inj h
        simp only [Prod.mk.injEq] at h
        obtain ⟨-, rfl, -, -⟩ := h
        exact Out.runEvs_held hi h1

theorem Joint.valid {s : St α} {o : Out.Sess} {h : Hist} (x : Joint env f check s o h) : o.invalid = false ∧ o.error ≠ some .interrupted := by
  induction x with
  | new => exact ⟨rfl, by simp [setup]⟩
  | call e x he hj ih =>
    have := joint_held ih.2 hj
    exact ⟨this.invalid.trans ih.1, this.err⟩

/-- A history with processors that may fail is one with processors that accept everything, or an error of a processor is waiting
for the next `solve`. -/
theorem Joint.near {s : St α} {o : Out.Sess} {h : Hist} (x : Joint env f check s o h) :
    Joint env.lenient f check s o h ∨ Out.Dead o ∧ env.chk.Fails := by
  induction x with
  | new e => exact .inl (.new e)
  | @call s s' o o' h op r e x he hj ih =>
    have key : ∀ {o1 : Out.Sess} {er : Option Out.SErr}, Gone op o1 er → er = none → Out.Dead o1 := by
      intro o1 er hg her
      cases op <;> first | exact hg.2 | (rw [hg.1] at her; cases her)
    rcases ih with ih | ⟨ih, hf⟩
    · rcases joint_near (e := e) (env := env) s o op with k | ⟨⟨s1, r1, o1, er, k1, k2, k3⟩, hf⟩
      · rw [k] at hj; exact .inl (.call e ih he hj)
      · rw [k2] at hj
        have hj := Except.ok.inj hj
        simp only [Prod.mk.injEq] at hj
        obtain ⟨-, rfl, -, h⟩ := hj
        exact .inr ⟨key k3 h, hf⟩
    · obtain ⟨o1, er, k2, k3⟩ := joint_gone (env := env) ih x.valid.1 (St.step_of_joint hj)
      rw [k2] at hj
      have hj := Except.ok.inj hj
      simp only [Prod.mk.injEq] at hj
      obtain ⟨-, rfl, -, h⟩ := hj
      exact .inr ⟨key k3 h, hf⟩

end Varisat.Solver

namespace Varisat.Solver
open Api

variable {α : Type} [LinearOrder α] {env : Out.Env} {f : Option Out.Format} {check : Bool}

/-- No processor has failed if `close_proof` succeeds, -/
theorem Joint.lenient_of_close {s : St α} {o o' : Out.Sess} {h : Hist} (x : Joint env f check s o h) (hc : Out.close env o = some (o', .unit)) :
    Joint env.lenient f check s o h := by
  rcases x.near with x | ⟨hd, -⟩
  · exact x
  · exfalso
    unfold Out.close Out.closeOutput at hc
    rw [hd.addStep] at hc
    simp only [Out.flush, hd.format, Option.isSome_none, Bool.false_eq_true, if_false, Out.takeError, hd.err] at hc
    cases hc

/-- if there is a checker, -/
theorem Joint.lenient_of_checker {s : St α} {o : Out.Sess} {h : Hist} {c : Checker.St} (x : Joint env f check s o h) (hc : o.proof.checker = some c) :
    Joint env.lenient f check s o h := by
  rcases x.near with x | ⟨hd, -⟩
  · exact x
  · rw [hd.checker] at hc; cases hc

/-- or if `solve` returns an answer. -/
theorem Joint.lenient_of_answer {e : Env α} {s s' : St α} {o o' : Out.Sess} {h : Hist} {n : Nat} {r : List Nat} (x : Joint env f check s o h)
    (hj : s.joint e env (.solve n) o = .ok (s', o', r, none)) :
    Joint env.lenient f check s o h ∧ s.joint e env.lenient (.solve n) o = .ok (s', o', r, none) := by
  have no : ∀ {o1 : Out.Sess} {s1 : St α} {r1 : List Nat} {er : Option Out.SErr}, s.joint e env (.solve n) o = .ok (s1, o1, r1, er) →
      Gone (.solve n) o1 er → False := by
    intro o1 s1 r1 er h1 h2
    rw [hj] at h1
    have h1 := Except.ok.inj h1
    simp only [Prod.mk.injEq] at h1
    obtain ⟨-, -, -, h1⟩ := h1
    rw [← h1] at h2
    cases h2.1
  rcases x.near with x' | ⟨hd, -⟩
  · rcases joint_near (e := e) (env := env) s o (.solve n) with k | ⟨⟨s1, r1, o1, er, -, k2, k3⟩, -⟩
    · rw [k] at hj; exact ⟨x', hj⟩
    · exact (no k2 k3).elim
  · obtain ⟨o1, er, k2, k3⟩ := joint_gone (env := env) hd x.valid.1 (St.step_of_joint hj)
    exact (no k2 k3).elim

end Varisat.Solver
