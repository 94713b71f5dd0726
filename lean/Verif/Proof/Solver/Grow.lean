import Verif.Proof.Solver.Reach
/-!
# What stays the same outside of the analysis of failed assumptions
-/
namespace Varisat.Solver

variable {α : Type} [LinearOrder α]

/-- Clean scratch flags stay clean, the failed core stays the same, the proof grows and there are never
fewer solver variables. -/
structure Grow (s s' : St α) : Prop where
  tmp : (∀ v, s.tmp v = false) → ∀ v, s'.tmp v = false
  core : s'.asm.userFailedCore = s.asm.userFailedCore
  log : s.log <+: s'.log
  sat : s'.sat = .unsatUnder → s.sat = .unsatUnder
  slen : s.vars.gfs.len ≤ s'.vars.gfs.len
  fails : ∀ c hs, .failedAssumptions c hs ∈ s'.log → .failedAssumptions c hs ∈ s.log

theorem Grow.refl (s : St α) : Grow s s := ⟨id, rfl, List.prefix_refl _, id, Nat.le_refl _, fun _ _ h => h⟩
theorem Grow.trans {a b c : St α} (h : Grow a b) (k : Grow b c) : Grow a c :=
  ⟨fun q => k.tmp (h.tmp q), k.core.trans h.core, h.log.trans k.log, fun q => h.sat (k.sat q), Nat.le_trans h.slen k.slen,
    fun c hs q => h.fails c hs (k.fails c hs q)⟩

/-- Only parts that do not matter here changed. -/
theorem Grow.of {s s' : St α} (h1 : s'.tmp = s.tmp) (h2 : s'.asm.userFailedCore = s.asm.userFailedCore) (h3 : s'.log = s.log)
    (h4 : s'.sat = .unsatUnder → s.sat = .unsatUnder) (h5 : s.vars.gfs.len ≤ s'.vars.gfs.len := by exact Nat.le_refl _) :
    Grow s s' := ⟨by rw [h1]; exact id, h2, by rw [h3]; exact List.prefix_refl _, h4, h5, by rw [h3]; exact fun _ _ h => h⟩

theorem Grow.pre {a b c : St α} (k : Grow b c) (h1 : b.tmp = a.tmp) (h2 : b.asm.userFailedCore = a.asm.userFailedCore)
    (h3 : b.log = a.log) (h4 : b.sat = .unsatUnder → a.sat = .unsatUnder)
    (h5 : a.vars.gfs.len ≤ b.vars.gfs.len := by exact Nat.le_refl _) : Grow a c := (Grow.of h1 h2 h3 h4 h5).trans k

namespace St

theorem emit_fails {L : List ProofStep} {x : ProofStep} (hx : ∀ c hs, x ≠ .failedAssumptions c hs) :
    ∀ c hs, .failedAssumptions c hs ∈ L ++ [x] → ProofStep.failedAssumptions c hs ∈ L := by
  intro c hs h
  rcases List.mem_append.1 h with h | h
  · exact h
  · exact absurd (List.mem_singleton.1 h).symm (hx c hs)

theorem emitG_grow (s : St α) (x : ProofStep) (hx : ∀ c hs, x ≠ .failedAssumptions c hs := by intro _ _ h; cases h) :
    Grow s (s.emitG x) := ⟨id, rfl, List.prefix_append _ _, id, Nat.le_refl _, emit_fails hx⟩

theorem emit_grow {s s' : St α} {x : ProofStep} (h : s.emit x = .ok s')
    (hx : ∀ c hs, x ≠ .failedAssumptions c hs := by intro _ _ h; cases h) : Grow s s' := by
  unfold emit at h
  split at h
  · rename_i y hy
    cases h
    refine ⟨id, rfl, List.prefix_append _ _, id, Nat.le_refl _, emit_fails ?_⟩
    rintro c hs rfl
    cases x <;> simp only [mapStep?, Option.map_eq_some_iff, reduceCtorEq, and_false, exists_false] at hy
    all_goals first | (cases hy; done) | (injection hy with hy; cases hy; done) | exact hx _ _ rfl
  · cases h

theorem emitAll_grow : ∀ {xs : List ProofStep} {s s' : St α}, emitAll xs s = .ok s' →
    (∀ x ∈ xs, ∀ c hs, x ≠ .failedAssumptions c hs) → Grow s s'
  | [], _, _, h, _ => by cases h; exact Grow.refl _
  | x :: xs, s, s', h, hx => by
    rw [emitAll] at h
    obtain ⟨t, h1, h⟩ := bind_inv h
    exact (emit_grow h1 (hx x (by simp))).trans (emitAll_grow h fun y hy => hx y (by simp [hy]))

theorem backtrack_grow (s : St α) (n : Nat) : Grow s (s.backtrack n) := Grow.of rfl rfl rfl id
theorem fullRestart_grow (s : St α) : Grow s s.fullRestart := Grow.of rfl rfl rfl id

theorem updSolverData_grow {s s' : St α} {v : Nat} {f : VarData → VarData} (h : s.updSolverData v f = .ok s') : Grow s s' := by
  unfold updSolverData at h
  split at h
  · cases h
  · split at h
    · cases h; exact Grow.of rfl rfl rfl id
    · cases h

theorem globalFromUser1_grow {e : Env α} {s s' : St α} {u g : Nat} {b : Bool} (h : s.globalFromUser1 e u b = .ok (s', g)) :
    Grow s s' := by
  unfold globalFromUser1 at h
  split at h
  · split at h
    · cases h
    · cases h; exact Grow.refl _
  · cases h
    exact ⟨id, rfl, List.prefix_append _ _, id, Nat.le_refl _, emit_fails (by intro _ _ h; cases h)⟩

theorem fillUsers_grow {e : Env α} : ∀ {n i : Nat} {s s' : St α}, fillUsers e n i s = .ok s' → Grow s s'
  | 0, _, _, _, h => by cases h; exact Grow.refl _
  | n + 1, i, s, s', h => by
    rw [fillUsers] at h
    obtain ⟨⟨t, g⟩, h1, h⟩ := bind_inv h
    exact (globalFromUser1_grow h1).trans (fillUsers_grow h)

theorem globalFromUser_grow {e : Env α} {s s' : St α} {u g : Nat} {b : Bool} (h : s.globalFromUser e u b = .ok (s', g)) :
    Grow s s' := by
  unfold globalFromUser at h
  obtain ⟨t, h1, h⟩ := bind_inv h
  exact (fillUsers_grow h1).trans (globalFromUser1_grow h)

theorem initSolverVar_grow {e : Env α} {s s' : St α} {v g : Nat} (h : s.initSolverVar e v g = .ok s') : Grow s s' := by
  unfold initSolverVar at h
  split at h
  · cases h
  · simp only at h
    split at h
    · cases h
    · cases h; exact Grow.of rfl rfl rfl id

theorem solverFromGlobal_grow {e : Env α} {s s' : St α} {g v : Nat} (h : s.solverFromGlobal e g = .ok (s', v)) : Grow s s' := by
  unfold solverFromGlobal at h
  split at h
  · cases h; exact Grow.refl _
  · obtain ⟨t, h1, h⟩ := bind_inv h
    cases h
    refine Grow.trans ?_ ((initSolverVar_grow h1).trans (emitG_grow _ _))
    exact Grow.of rfl rfl rfl id (Nat.le_max_left _ _)

theorem solverFromUser_grow {e : Env α} {s s' : St α} {u v : Nat} {b : Bool} (h : s.solverFromUser e u b = .ok (s', v)) :
    Grow s s' := by
  unfold solverFromUser at h
  obtain ⟨t, h1, h⟩ := bind_inv h
  exact (globalFromUser_grow (s' := t.1) (g := t.2) h1).trans (solverFromGlobal_grow h)

theorem solverFromUserLits_grow {e : Env α} {b : Bool} : ∀ {ls : List Lit} {s s' : St α} {r : List Lit},
    solverFromUserLits e b ls s = .ok (s', r) → Grow s s'
  | [], _, _, _, h => by cases h; exact Grow.refl _
  | l :: ls, s, s', r, h => by
    rw [solverFromUserLits] at h
    obtain ⟨⟨t, v⟩, h1, h⟩ := bind_inv h
    obtain ⟨⟨t2, q⟩, h2, h⟩ := bind_inv h
    cases h
    exact (solverFromUser_grow h1).trans (solverFromUserLits_grow h2)

theorem deleteGlobal_grow {s s' : St α} {g : Nat} (h : s.deleteGlobal g = .ok s') : Grow s s' := by
  unfold deleteGlobal at h
  repeat' split at h
  all_goals first | (cases h; done) | (cases h; first | exact Grow.refl _ | exact ⟨id, rfl, List.prefix_append _ _, id, Nat.le_refl _, emit_fails (by intro _ _ h; cases h)⟩)

theorem removeSolverVar_grow {s s' : St α} {v : Nat} (h : s.removeSolverVar v = .ok s') : Grow s s' := by
  unfold removeSolverVar at h
  split at h
  · cases h
  · simp only at h
    refine Grow.trans ?_ (deleteGlobal_grow h)
    exact ⟨id, rfl, List.prefix_append _ _, id, Nat.le_refl _, emit_fails (by intro _ _ h; cases h)⟩

theorem setMode_grow {e : Env α} {s s' : St α} {g : Nat} {m : Mode} {r : Option Nat} (h : s.setMode e g m = .ok (s', r)) :
    Grow s s' := by
  unfold setMode at h
  split at h
  · cases h
  · rename_i d hd
    have key : Grow s (if m ≠ .hide then ({ s with vars := { s.vars with data := s.vars.data.set g { d with mode := m } } } : St α).emitG
        (.changeSamplingMode g (m == .sample)) else { s with vars := { s.vars with data := s.vars.data.set g { d with mode := m } } }) := by
      split
      · exact ⟨id, rfl, List.prefix_append _ _, id, Nat.le_refl _, emit_fails (by intro _ _ h; cases h)⟩
      · exact Grow.of rfl rfl rfl id
    split at h
    · cases h
    split at h
    · cases h
    split at h
    · cases h; exact Grow.refl _
    simp only at h
    split at h
    · cases h
      refine key.trans (Grow.trans ?_ (emitG_grow _ _))
      exact Grow.of rfl rfl rfl id
    split at h
    · obtain ⟨t, h1, h⟩ := bind_inv h
      cases h
      refine key.trans (Grow.trans ?_ ((emitG_grow _ _).trans (deleteGlobal_grow h1)))
      refine Grow.of rfl rfl rfl id ?_
      generalize (if m ≠ .hide then ({ s with vars := { s.vars with data := s.vars.data.set g { d with mode := m } } } : St α).emitG
        (.changeSamplingMode g (m == .sample)) else { s with vars := { s.vars with data := s.vars.data.set g { d with mode := m } } }) = K
      dsimp only
      split <;> exact Nat.le_refl _
    · cases h; exact ⟨id, rfl, List.prefix_append _ _, id, Nat.le_refl _, emit_fails (by intro _ _ h; cases h)⟩

theorem observeLoop_grow {e : Env α} : ∀ {gs : List Nat} {s s' : St α} {r : List Nat}, observeLoop e gs s = .ok (s', r) → Grow s s'
  | [], _, _, _, h => by cases h; exact Grow.refl _
  | g :: gs, s, s', r, h => by
    rw [observeLoop] at h
    split at h
    · cases h
    split at h
    · obtain ⟨⟨t, o⟩, h1, h⟩ := bind_inv h
      obtain ⟨⟨t2, q⟩, h2, h⟩ := bind_inv h
      simp only at h
      cases o with
      | none => cases h
      | some u =>
        cases h
        exact (setMode_grow h1).trans (observeLoop_grow h2)
    · exact observeLoop_grow h

theorem setUserMode_grow {e : Env α} {s s' : St α} {u : Nat} {m : Mode} (h : s.setUserMode e u m = .ok s') : Grow s s' := by
  unfold setUserMode at h
  obtain ⟨t, h1, h⟩ := bind_inv h
  obtain ⟨t2, h2, h⟩ := bind_inv h
  cases h
  exact (globalFromUser_grow (s' := t.1) (g := t.2) h1).trans (setMode_grow (s' := t2.1) (r := t2.2) h2)

theorem setAssumed_grow {b : Bool} : ∀ {ls : List Lit} {s s' : St α}, setAssumed b ls s = .ok s' → Grow s s'
  | [], _, _, h => by cases h; exact Grow.refl _
  | l :: ls, s, s', h => by
    rw [setAssumed] at h
    obtain ⟨t, h1, h⟩ := bind_inv h
    exact (updSolverData_grow h1).trans (setAssumed_grow h)

theorem clearIsolated_grow : ∀ {ls : List Lit} {s s' : St α}, clearIsolated ls s = .ok s' → Grow s s'
  | [], _, _, h => by cases h; exact Grow.refl _
  | l :: ls, s, s', h => by
    rw [clearIsolated] at h
    obtain ⟨t, h1, h⟩ := bind_inv h
    exact (updSolverData_grow h1).trans (clearIsolated_grow h)

theorem assume_grow {e : Env α} {s s' : St α} {ls : List Lit} (h : s.assume e ls = .ok s') :
    Grow s s' ∧ s'.sat ≠ .unsatUnder := by
  unfold assume at h
  obtain ⟨t1, h1, h⟩ := bind_inv h
  obtain ⟨⟨t2, r⟩, h2, h⟩ := bind_inv h
  obtain ⟨t3, h3, h⟩ := bind_inv h
  have k0 : Grow s ({ s.fullRestart with sat := if s.fullRestart.sat = SatState.unsat then SatState.unsat else SatState.unknown } : St α) :=
    Grow.of rfl rfl rfl (fun q => by
      simp only at q
      split at q <;> cases q)
  have k1 := setAssumed_grow h1
  have k2 := solverFromUserLits_grow h2
  have k3 := setAssumed_grow h3
  have k4 := emit_grow h
  have k5 : Grow ({ s.fullRestart with sat := if s.fullRestart.sat = SatState.unsat then SatState.unsat else SatState.unknown } : St α) s' := by
    refine k1.trans (k2.trans (Grow.trans ?_ (k3.trans k4)))
    exact Grow.of rfl rfl rfl id
  refine ⟨k0.trans k5, fun q => ?_⟩
  have := k5.sat q
  simp only at this
  split at this <;> cases this

theorem storeClause_grow {e : Env α} {s s' : St α} {b : Bool} {ls : List Lit} (h : s.storeClause e b ls = .ok s') : Grow s s' := by
  unfold storeClause at h
  split at h
  · cases h; exact Grow.of rfl rfl rfl (fun q => by cases q)
  · split at h
    · cases h; exact Grow.of rfl rfl rfl (fun q => by cases q)
    · cases h; exact Grow.of rfl rfl rfl id
  · cases h; exact Grow.of rfl rfl rfl id
  · split at h
    · cases h
    · cases h; exact Grow.of rfl rfl rfl id

theorem loadLits_grow {e : Env α} {s s' : St α} {ls : List Lit} (h : s.loadLits e ls = .ok s') : Grow s s' := by
  unfold loadLits at h
  obtain ⟨t, h1, h⟩ := bind_inv h
  have k1 := emit_grow h1
  split at h
  · cases h; exact k1
  have key : ∀ {u : St α}, Grow s u → (let r := scanLits u.p (dedupLits (sortLits ls))
      let s := { u with p := r.2.1.foldl (fun (p : Pt) (l : Lit) => p.resurrect l.neg) u.p }
      let lits := r.1 ++ r.2.1
      if r.2.2 then
        if lits.length > 1 then s.emit (.deleteClause lits .satisfied) else pure s
      else s.storeClause e r.1.isEmpty lits) = .ok s' → Grow s s' := by
    intro u hu h
    simp only at h
    have hg : Grow s ({ u with p := (scanLits u.p (dedupLits (sortLits ls))).2.1.foldl (fun (p : Pt) (l : Lit) => p.resurrect l.neg) u.p } : St α) :=
      hu.trans (Grow.of rfl rfl rfl id)
    split at h
    · split at h
      · exact hg.trans (emit_grow h)
      · cases h; exact hg
    · exact hg.trans (storeClause_grow h)
  split at h
  · obtain ⟨u, h2, h⟩ := bind_inv h
    exact key (k1.trans (clearIsolated_grow h2)) h
  · exact key k1 h

theorem loadClause_grow {e : Env α} {s s' : St α} {ls : List Lit} (h : s.loadClause e ls = .ok s') : Grow s s' := by
  unfold loadClause at h
  split at h
  · cases h; exact Grow.refl _
  · obtain ⟨⟨t, r⟩, h1, h⟩ := bind_inv h
    refine Grow.trans ?_ ((solverFromUserLits_grow h1).trans (loadLits_grow h))
    refine Grow.of rfl rfl rfl (fun q => ?_)
    have q : (if s.sat = SatState.sat then SatState.unknown else s.sat) = .unsatUnder := q
    split at q
    · cases q
    · exact q

/-! ### The search -/

theorem propagate_grow {s s' : St α} {o : Option Conflict} (h : s.propagate = .ok (s', o)) : Grow s s' := by
  unfold propagate at h
  split at h
  · cases h
  · obtain ⟨r, h1, h⟩ := bind_inv h
    cases h
    exact Grow.of rfl rfl rfl id

theorem proveUnits_grow {s s' : St α} {b : Bool} (h : s.proveUnits = .ok (s', b)) : Grow s s' := by
  unfold proveUnits at h
  split at h
  · simp only at h
    split at h
    · cases h
    · split at h
      · cases h; exact Grow.of rfl rfl rfl id
      · obtain ⟨t, h1, h⟩ := bind_inv h
        cases h
        exact (emit_grow h1).pre rfl rfl rfl id
  · cases h; exact Grow.refl _

theorem binSteps_fails (s : St α) {L : List Lit} : ∀ x ∈ L.flatMap s.binSteps, ∀ c hs, x ≠ .failedAssumptions c hs := by
  intro x hx c hs
  obtain ⟨l, _, hx⟩ := List.mem_flatMap.1 hx
  obtain ⟨y, _, rfl⟩ := List.mem_map.1 hx
  simp

theorem simplifyBinary_grow {s s' : St α} (h : s.simplifyBinary = .ok s') : Grow s s' := by
  unfold simplifyBinary at h
  obtain ⟨t, h1, h⟩ := bind_inv h
  cases h
  exact (emitAll_grow h1 (binSteps_fails s)).trans (Grow.of rfl rfl rfl id)

theorem simplifyClause_grow {s s' : St α} {c : Nat} {b : Bool} (h : s.simplifyClause c = .ok (s', b)) : Grow s s' := by
  unfold simplifyClause at h
  simp only at h
  split at h
  · obtain ⟨t, h1, h⟩ := bind_inv h
    cases h
    exact emit_grow h1
  · split at h
    · obtain ⟨t, h1, h⟩ := bind_inv h
      obtain ⟨t2, h2, h⟩ := bind_inv h
      have k := (emit_grow h1).trans (emit_grow h2)
      split at h
      · cases h
      · cases h
      · cases h; exact k.trans (Grow.of rfl rfl rfl id)
      · cases h; exact k.trans (Grow.of rfl rfl rfl id)
    · cases h; exact Grow.refl _

theorem filterLoop_grow : ∀ {cs : List Nat} {s s' : St α} {r : List Nat}, filterLoop cs s = .ok (s', r) → Grow s s'
  | [], _, _, _, h => by cases h; exact Grow.refl _
  | c :: cs, s, s', r, h => by
    rw [filterLoop] at h
    split at h
    · exact filterLoop_grow h
    · obtain ⟨⟨t, b⟩, h1, h⟩ := bind_inv h
      have k := simplifyClause_grow h1
      split at h
      · obtain ⟨⟨t2, q⟩, h2, h⟩ := bind_inv h
        cases h
        exact k.trans (filterLoop_grow h2)
      · exact k.trans ((filterLoop_grow h).pre rfl rfl rfl id)

theorem removeLoop_grow : ∀ {vs : List Nat} {s s' : St α}, removeLoop vs s = .ok s' → Grow s s'
  | [], _, _, h => by cases h; exact Grow.refl _
  | v :: vs, s, s', h => by
    rw [removeLoop] at h
    split at h
    · exact removeLoop_grow h
    · obtain ⟨t, h1, h⟩ := bind_inv h
      have k := updSolverData_grow h1
      split at h
      · cases h
      · split at h
        · obtain ⟨t2, h2, h⟩ := bind_inv h
          exact k.trans ((removeSolverVar_grow h2).trans (removeLoop_grow h))
        · exact k.trans (removeLoop_grow h)

theorem unitSimplify_grow {s s' : St α} (h : s.unitSimplify = .ok s') : Grow s s' := by
  unfold unitSimplify at h
  obtain ⟨t, h1, h⟩ := bind_inv h
  obtain ⟨⟨t2, r⟩, h2, h⟩ := bind_inv h
  refine (simplifyBinary_grow h1).trans (((filterLoop_grow h2).trans ((removeLoop_grow h).pre rfl rfl rfl id)).pre rfl rfl rfl id)

theorem reduceLocals_grow {s s' : St α} (h : s.reduceLocals = .ok s') : Grow s s' := by
  unfold reduceLocals at h
  split at h
  · cases h
  · exact (emitAll_grow h (by
      intro x hx c hs
      obtain ⟨y, _, rfl⟩ := List.mem_map.1 hx
      simp)).pre rfl rfl rfl id

theorem restartStep_grow (s : St α) (e : Env α) : Grow s (s.restartStep e) := by
  unfold restartStep
  split
  · exact Grow.of rfl rfl rfl id
  · exact Grow.refl _

theorem makeDecision_grow (s : St α) : Grow s s.makeDecision.1 := by
  unfold makeDecision
  simp only
  split <;> exact Grow.of rfl rfl rfl id

/-- `enqueue_assumption` without a conflict. -/
theorem enqLoop_grow : ∀ {n : Nat} {s s' : St α} {o : Enq}, enqLoop n s = .ok (s', o) → o ≠ .conflict → Grow s s'
  | 0, _, _, _, h, _ => by cases h
  | n + 1, s, s', o, h, ho => by
    rw [enqLoop] at h
    simp only at h
    split at h
    · cases h; exact Grow.refl _
    · split at h
      · obtain ⟨t, h1, h⟩ := bind_inv h
        cases h
        exact absurd rfl ho
      · exact (enqLoop_grow h ho).pre rfl rfl rfl id
      · cases h; exact Grow.of rfl rfl rfl id

/-- Calls other than `solve`. -/
theorem step_grow {e : Env α} {s s' : St α} {op : Op} {r : List Nat} (h : s.step e op = .ok (s', r)) (hop : ∀ n, op ≠ .solve n) :
    Grow s s' := by
  unfold step at h
  cases op with
  | addClause c =>
    obtain ⟨t, h1, h⟩ := bind_inv h
    cases h; exact loadClause_grow h1
  | newVar =>
    obtain ⟨⟨t, u⟩, h1, h⟩ := bind_inv h
    cases h
    unfold newUserVar at h1
    obtain ⟨⟨t2, g⟩, h2, h1⟩ := bind_inv h1
    cases h1
    exact (globalFromUser_grow h2).pre rfl rfl rfl id
  | assume ls =>
    obtain ⟨t, h1, h⟩ := bind_inv h
    cases h; exact (assume_grow h1).1
  | solve n => exact absurd rfl (hop n)
  | witnessVar u =>
    obtain ⟨t, h1, h⟩ := bind_inv h
    cases h; exact setUserMode_grow h1
  | sampleVar u =>
    obtain ⟨t, h1, h⟩ := bind_inv h
    cases h; exact setUserMode_grow h1
  | hideVar u =>
    obtain ⟨t, h1, h⟩ := bind_inv h
    cases h; exact setUserMode_grow h1
  | observe => exact observeLoop_grow h

end St
end Varisat.Solver
