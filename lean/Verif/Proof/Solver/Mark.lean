import Verif.Proof.Solver.Exec
import Verif.Proof.Solver.Grow
import Verif.Spec.Marks
/-!
# Sampling modes and assumed variables follow the calls
-/
namespace Varisat.Solver

open Api (Abs Hist Marks marks Allowed)

variable {α : Type} [LinearOrder α]
variable {ids : Nat → Nat}

/-- Mode of a global variable, and whether it is assumed. -/
def lab (x : Vars) (g : Nat) : Option (Mode × Bool) := (x.data[g]?).map fun d => (d.mode, d.assumed)

/-- Names, modes and flags stay the same. -/
structure Lab (s s' : St α) : Prop where
  gfu : s'.vars.gfu = s.vars.gfu
  lab : ∀ g, lab s'.vars g = lab s.vars g

theorem Lab.refl (s : St α) : Lab s s := ⟨rfl, fun _ => rfl⟩
theorem Lab.of {s s' : St α} (h : s'.vars = s.vars) : Lab s s' := ⟨by rw [h], fun _ => by rw [h]⟩
theorem Lab.trans {a b c : St α} (h : Lab a b) (k : Lab b c) : Lab a c :=
  ⟨k.gfu.trans h.gfu, fun g => (k.lab g).trans (h.lab g)⟩

/-- Only other parts changed before. -/
theorem Lab.pre {a b c : St α} (k : Lab b c) (h : b.vars = a.vars) : Lab a c := (Lab.of h).trans k

namespace St

theorem emit_lab {s s' : St α} {x : ProofStep} (h : s.emit x = .ok s') : Lab s s' := by
  unfold emit at h
  split at h
  · cases h; exact Lab.of rfl
  · cases h

theorem emitAll_lab : ∀ {xs : List ProofStep} {s s' : St α}, emitAll xs s = .ok s' → Lab s s'
  | [], _, _, h => by cases h; exact Lab.refl _
  | x :: xs, s, s', h => by
    rw [emitAll] at h
    obtain ⟨t, h1, h⟩ := bind_inv h
    exact (emit_lab h1).trans (emitAll_lab h)

theorem updSolverData_lab {s s' : St α} {v : Nat} {f : VarData → VarData} (h : s.updSolverData v f = .ok s')
    (hf : ∀ d, (f d).mode = d.mode ∧ (f d).assumed = d.assumed) : Lab s s' := by
  unfold updSolverData at h
  split at h
  · cases h
  · split at h
    · cases h
      refine ⟨rfl, fun g => ?_⟩
      unfold Solver.lab
      simp only [List.getElem?_modify]
      split
      · cases s.vars.data[g]? with
        | none => rfl
        | some d => simp [hf d]
      · cases s.vars.data[g]? <;> rfl
    · cases h

theorem clearIsolated_lab : ∀ {ls : List Lit} {s s' : St α}, clearIsolated ls s = .ok s' → Lab s s'
  | [], _, _, h => by cases h; exact Lab.refl _
  | l :: ls, s, s', h => by
    rw [clearIsolated] at h
    obtain ⟨t, h1, h⟩ := bind_inv h
    exact (updSolverData_lab h1 fun _ => ⟨rfl, rfl⟩).trans (clearIsolated_lab h)

theorem storeClause_lab {e : Env α} {s s' : St α} {b : Bool} {ls : List Lit} (h : s.storeClause e b ls = .ok s') : Lab s s' := by
  unfold storeClause at h
  repeat' split at h
  all_goals first | (cases h; done) | (cases h; exact Lab.of rfl)

theorem loadLits_lab {e : Env α} {s s' : St α} {ls : List Lit} (h : s.loadLits e ls = .ok s') : Lab s s' := by
  unfold loadLits at h
  obtain ⟨t, h1, h⟩ := bind_inv h
  have k1 := emit_lab h1
  split at h
  · cases h; exact k1
  have key : ∀ {u : St α}, Lab s u → (let r := scanLits u.p (dedupLits (sortLits ls))
      let s := { u with p := r.2.1.foldl (fun (p : Pt) (l : Lit) => p.resurrect l.neg) u.p }
      let lits := r.1 ++ r.2.1
      if r.2.2 then
        if lits.length > 1 then s.emit (.deleteClause lits .satisfied) else pure s
      else s.storeClause e r.1.isEmpty lits) = .ok s' → Lab s s' := by
    intro u hu h
    simp only at h
    have hg : Lab s ({ u with p := (scanLits u.p (dedupLits (sortLits ls))).2.1.foldl (fun (p : Pt) (l : Lit) => p.resurrect l.neg) u.p } : St α) :=
      hu.trans (Lab.of rfl)
    split at h
    · split at h
      · exact hg.trans (emit_lab h)
      · cases h; exact hg
    · exact hg.trans (storeClause_lab h)
  split at h
  · obtain ⟨u, h2, h⟩ := bind_inv h
    exact key (k1.trans (clearIsolated_lab h2)) h
  · exact key k1 h

theorem emit_keep {s s' : St α} {x : ProofStep} (h : s.emit x = .ok s') : s'.vars.gfs = s.vars.gfs ∧ s'.asm.lits = s.asm.lits := by
  unfold emit at h
  split at h
  · cases h; exact ⟨rfl, rfl⟩
  · cases h

theorem updSolverData_keep {s s' : St α} {v : Nat} {f : VarData → VarData} (h : s.updSolverData v f = .ok s') :
    s'.vars.gfs = s.vars.gfs ∧ s'.asm.lits = s.asm.lits := by
  unfold updSolverData at h
  repeat' split at h
  all_goals first | (cases h; done) | (cases h; exact ⟨rfl, rfl⟩)

theorem clearIsolated_keep : ∀ {ls : List Lit} {s s' : St α}, clearIsolated ls s = .ok s' →
    s'.vars.gfs = s.vars.gfs ∧ s'.asm.lits = s.asm.lits
  | [], _, _, h => by cases h; exact ⟨rfl, rfl⟩
  | l :: ls, s, s', h => by
    rw [clearIsolated] at h
    obtain ⟨t, h1, h⟩ := bind_inv h
    have k1 := updSolverData_keep h1
    have k2 := clearIsolated_keep h
    exact ⟨k2.1.trans k1.1, k2.2.trans k1.2⟩

theorem storeClause_keep {e : Env α} {s s' : St α} {b : Bool} {ls : List Lit} (h : s.storeClause e b ls = .ok s') :
    s'.vars.gfs = s.vars.gfs ∧ s'.asm.lits = s.asm.lits := by
  unfold storeClause at h
  repeat' split at h
  all_goals first | (cases h; done) | (cases h; exact ⟨rfl, rfl⟩)

theorem loadLits_keep {e : Env α} {s s' : St α} {ls : List Lit} (h : s.loadLits e ls = .ok s') :
    s'.vars.gfs = s.vars.gfs ∧ s'.asm.lits = s.asm.lits := by
  unfold loadLits at h
  obtain ⟨t, h1, h⟩ := bind_inv h
  have k1 := emit_keep h1
  split at h
  · cases h; exact k1
  have key : ∀ {u : St α}, u.vars.gfs = s.vars.gfs ∧ u.asm.lits = s.asm.lits → (let r := scanLits u.p (dedupLits (sortLits ls))
      let s := { u with p := r.2.1.foldl (fun (p : Pt) (l : Lit) => p.resurrect l.neg) u.p }
      let lits := r.1 ++ r.2.1
      if r.2.2 then
        if lits.length > 1 then s.emit (.deleteClause lits .satisfied) else pure s
      else s.storeClause e r.1.isEmpty lits) = .ok s' → s'.vars.gfs = s.vars.gfs ∧ s'.asm.lits = s.asm.lits := by
    intro u hu h
    simp only at h
    split at h
    · split at h
      · have k := emit_keep h; exact ⟨k.1.trans hu.1, k.2.trans hu.2⟩
      · cases h; exact hu
    · have k := storeClause_keep h; exact ⟨k.1.trans hu.1, k.2.trans hu.2⟩
  split at h
  · obtain ⟨u, h2, h⟩ := bind_inv h
    have k2 := clearIsolated_keep h2
    exact key ⟨k2.1.trans k1.1, k2.2.trans k1.2⟩ h
  · exact key k1 h

theorem deleteGlobal_lab {s s' : St α} {g : Nat} (h : s.deleteGlobal g = .ok s') : Lab s s' := by
  unfold deleteGlobal at h
  split at h
  · cases h; exact Lab.refl _
  split at h
  · cases h; exact Lab.refl _
  split at h
  · cases h
  rename_i d hd
  split at h
  · cases h
  split at h
  · cases h; exact Lab.refl _
  cases h
  refine ⟨rfl, fun k => ?_⟩
  show ((s.vars.data.set g { d with deleted := true })[k]?).map _ = _
  have hd : s.vars.data[g]? = some d := hd
  unfold Solver.lab
  by_cases hk : k = g
  · subst hk
    rw [List.getElem?_set_self (List.getElem?_eq_some_iff.1 hd).1, hd]; rfl
  · rw [List.getElem?_set_ne (Ne.symm hk)]

theorem deleteGlobal_keep {s s' : St α} {g : Nat} (h : s.deleteGlobal g = .ok s') :
    s'.vars.gfs = s.vars.gfs ∧ s'.asm.lits = s.asm.lits := by
  unfold deleteGlobal at h
  repeat' split at h
  all_goals first | (cases h; done) | (cases h; exact ⟨rfl, rfl⟩)

theorem removeSolverVar_lab {s s' : St α} {v : Nat} (h : s.removeSolverVar v = .ok s') : Lab s s' := by
  unfold removeSolverVar at h
  split at h
  · cases h
  · have k := deleteGlobal_lab h
    exact ⟨k.gfu, k.lab⟩

/-! ### The search -/

theorem propagate_lab {s s' : St α} {o : Option Conflict} (h : s.propagate = .ok (s', o)) : Lab s s' := by
  unfold propagate at h
  split at h
  · cases h
  · obtain ⟨r, h1, h⟩ := bind_inv h
    cases h
    exact Lab.of rfl

theorem proveUnits_lab {s s' : St α} {b : Bool} (h : s.proveUnits = .ok (s', b)) : Lab s s' := by
  unfold proveUnits at h
  split at h
  · simp only at h
    split at h
    · cases h
    · split at h
      · cases h; exact Lab.of rfl
      · obtain ⟨t, h1, h⟩ := bind_inv h
        cases h
        exact (emit_lab h1).pre rfl
  · cases h; exact Lab.refl _

theorem simplifyBinary_lab {s s' : St α} (h : s.simplifyBinary = .ok s') : Lab s s' := by
  unfold simplifyBinary at h
  obtain ⟨t, h1, h⟩ := bind_inv h
  cases h
  exact (emitAll_lab h1).trans (Lab.of rfl)

theorem simplifyClause_lab {s s' : St α} {c : Nat} {b : Bool} (h : s.simplifyClause c = .ok (s', b)) : Lab s s' := by
  unfold simplifyClause at h
  simp only at h
  split at h
  · obtain ⟨t, h1, h⟩ := bind_inv h
    cases h
    exact emit_lab h1
  · split at h
    · obtain ⟨t, h1, h⟩ := bind_inv h
      obtain ⟨t2, h2, h⟩ := bind_inv h
      have k := (emit_lab h1).trans (emit_lab h2)
      split at h
      · cases h
      · cases h
      · cases h; exact k.trans (Lab.of rfl)
      · cases h; exact k.trans (Lab.of rfl)
    · cases h; exact Lab.refl _

theorem filterLoop_lab : ∀ {cs : List Nat} {s s' : St α} {r : List Nat}, filterLoop cs s = .ok (s', r) → Lab s s'
  | [], _, _, _, h => by cases h; exact Lab.refl _
  | c :: cs, s, s', r, h => by
    rw [filterLoop] at h
    split at h
    · exact filterLoop_lab h
    · obtain ⟨⟨t, b⟩, h1, h⟩ := bind_inv h
      have k := simplifyClause_lab h1
      split at h
      · obtain ⟨⟨t2, q⟩, h2, h⟩ := bind_inv h
        cases h
        exact k.trans (filterLoop_lab h2)
      · exact k.trans ((filterLoop_lab h).pre rfl)

theorem removeLoop_lab : ∀ {vs : List Nat} {s s' : St α}, removeLoop vs s = .ok s' → Lab s s'
  | [], _, _, h => by cases h; exact Lab.refl _
  | v :: vs, s, s', h => by
    rw [removeLoop] at h
    split at h
    · exact removeLoop_lab h
    · obtain ⟨t, h1, h⟩ := bind_inv h
      have k := updSolverData_lab h1 (fun d => by split <;> exact ⟨rfl, rfl⟩)
      split at h
      · cases h
      · split at h
        · obtain ⟨t2, h2, h⟩ := bind_inv h
          exact k.trans ((removeSolverVar_lab h2).trans (removeLoop_lab h))
        · exact k.trans (removeLoop_lab h)

theorem unitSimplify_lab {s s' : St α} (h : s.unitSimplify = .ok s') : Lab s s' := by
  unfold unitSimplify at h
  obtain ⟨t, h1, h⟩ := bind_inv h
  obtain ⟨⟨t2, r⟩, h2, h⟩ := bind_inv h
  exact (simplifyBinary_lab h1).trans (((filterLoop_lab h2).trans ((removeLoop_lab h).pre rfl)).pre rfl)

theorem reduceLocals_lab {s s' : St α} (h : s.reduceLocals = .ok s') : Lab s s' := by
  unfold reduceLocals at h
  split at h
  · cases h
  · exact (emitAll_lab h).pre rfl

theorem analyzeAssumption_lab {s s' : St α} {l : Lit} (h : s.analyzeAssumption l = .ok s') : Lab s s' := by
  unfold analyzeAssumption at h
  simp only at h
  split at h
  · cases h
  · exact (emit_lab h).pre rfl

theorem enqLoop_lab : ∀ {n : Nat} {s s' : St α} {o : Enq}, enqLoop n s = .ok (s', o) → Lab s s'
  | 0, _, _, _, h => by cases h
  | n + 1, s, s', o, h => by
    rw [enqLoop] at h
    simp only at h
    split at h
    · cases h; exact Lab.refl _
    · split at h
      · obtain ⟨t, h1, h⟩ := bind_inv h
        cases h
        exact analyzeAssumption_lab h1
      · exact (enqLoop_lab h).pre rfl
      · cases h; exact Lab.of rfl

theorem makeDecision_lab (s : St α) : Lab s s.makeDecision.1 := by
  unfold makeDecision
  simp only
  split <;> exact Lab.of rfl

theorem findLoop_lab : ∀ {n : Nat} {s s' : St α} {o : Found}, findLoop n s = .ok (s', o) → Lab s s'
  | 0, _, _, _, h => by cases h
  | n + 1, s, s', o, h => by
    rw [findLoop] at h
    obtain ⟨⟨t, c⟩, h1, h⟩ := bind_inv h
    obtain ⟨⟨t2, b⟩, h2, h⟩ := bind_inv h
    have k := (propagate_lab h1).trans (proveUnits_lab h2)
    simp only at h
    split at h
    · cases h; exact k
    have key : ∀ {u : St α}, Lab s u → (do
        let q ← u.enqueueAssumption
        match q.2 with
        | .enqueued => findLoop n q.1
        | .conflict => pure (q.1, Found.assumption)
        | .done =>
          let d := q.1.makeDecision
          if d.2 then findLoop n d.1 else pure (d.1, Found.none)) = .ok (s', o) → Lab s s' := by
      intro u hu h
      obtain ⟨⟨q, z⟩, h3, h⟩ := bind_inv h
      have k3 := hu.trans (enqLoop_lab h3)
      cases z with
      | enqueued => exact k3.trans (findLoop_lab h)
      | conflict => cases h; exact k3
      | done =>
        simp only at h
        split at h
        · exact k3.trans ((makeDecision_lab q).trans (findLoop_lab h))
        · cases h; exact k3.trans (makeDecision_lab q)
    split at h
    · obtain ⟨u, h3, h⟩ := bind_inv h
      exact key (k.trans (unitSimplify_lab h3)) h
    · exact key k h

theorem addLearned_lab {e : Env α} {s s' : St α} {c : List Lit} (h : s.addLearned e c = .ok s') : Lab s s' := by
  unfold addLearned at h
  simp only at h
  repeat' split at h
  all_goals first | (cases h; done) | (cases h; exact Lab.of rfl)

theorem learn_lab {e : Env α} {s s' : St α} {c : Conflict} (h : s.learn e c = .ok s') : Lab s s' := by
  unfold learn at h
  obtain ⟨r, h1, h⟩ := bind_inv h
  obtain ⟨t, h2, h⟩ := bind_inv h
  exact ((emit_lab h2).trans (addLearned_lab h)).pre rfl

theorem conflictStep_lab {e : Env α} {s s' : St α} (h : s.conflictStep e = .ok s') : Lab s s' := by
  unfold conflictStep at h
  obtain ⟨⟨t, r⟩, h1, h⟩ := bind_inv h
  have k := findLoop_lab h1
  cases r with
  | none => cases h; exact k.trans (Lab.of rfl)
  | assumption => cases h; exact k.trans (Lab.of rfl)
  | conflict c => exact k.trans (learn_lab h)

theorem searchStep_lab {e : Env α} {s s' : St α} {b : Bool} (h : s.searchStep e = .ok (s', b)) : Lab s s' := by
  unfold searchStep at h
  split at h
  · cases h
  · obtain ⟨t, h1, h⟩ := bind_inv h
    cases h
    have k : Lab s t := (conflictStep_lab h1).pre rfl
    exact k.trans (Lab.of rfl)

theorem midsStep_lab (s : St α) (e : Env α) : Lab s (s.midsStep e) := by
  unfold midsStep; split <;> exact Lab.of rfl

theorem restartStep_lab (s : St α) (e : Env α) : Lab s (s.restartStep e) := by
  unfold restartStep; split <;> exact Lab.of rfl

theorem scheduleStep_lab {e : Env α} {s s' : St α} {b : Bool} (h : s.scheduleStep e = .ok (s', b)) : Lab s s' := by
  unfold scheduleStep at h
  split at h
  · cases h; exact Lab.refl _
  simp only at h
  split at h
  · obtain ⟨t, h1, h⟩ := bind_inv h
    exact (restartStep_lab s e).trans ((reduceLocals_lab h1).trans ((midsStep_lab _ e).trans (searchStep_lab h)))
  · exact (restartStep_lab s e).trans ((midsStep_lab _ e).trans (searchStep_lab h))

theorem solveLoop_lab {e : Env α} : ∀ {n : Nat} {s s' : St α}, solveLoop e n s = .ok s' → Lab s s'
  | 0, _, _, h => by cases h
  | n + 1, s, s', h => by
    rw [solveLoop] at h
    obtain ⟨⟨t, b⟩, h1, h⟩ := bind_inv h
    have k := scheduleStep_lab h1
    simp only at h
    split at h
    · exact k.trans (solveLoop_lab h)
    · cases h; exact k

theorem solve_lab {e : Env α} {n : Nat} {s s' : St α} {b : Bool} (h : s.solve e n = .ok (s', b)) : Lab s s' := by
  unfold solve at h
  obtain ⟨t, h1, h⟩ := bind_inv h
  cases h
  exact (solveLoop_lab h1).pre rfl

end St

/-! ### The invariant -/

/-- The marks describe the modes and flags of the named variables. -/
structure Marked (m : Marks) (s : St α) : Prop where
  wit : ∀ u g d, s.vars.gfu.map u = some g → s.vars.data[g]? = some d → (d.mode = .witness ↔ u ∈ m.witness)
  named : ∀ u ∈ m.witness, (s.vars.gfu.map u).isSome = true
  now : ∀ u ∈ m.now, ∃ g d, s.vars.gfu.map u = some g ∧ s.vars.data[g]? = some d ∧ d.assumed = true
  flag : ∀ u g d, s.vars.gfu.map u = some g → s.vars.data[g]? = some d → d.assumed = true →
    (u ∈ m.now ∧ ∃ l ∈ s.asm.lits, s.vars.gfs.map l.var = some g) ∨ u ∈ m.old

/-- Named variables keep mode and flag; new ones are neither witness variables nor assumed. -/
structure Fresh (s s' : St α) : Prop where
  gfu : ∀ u g, s.vars.gfu.map u = some g → s'.vars.gfu.map u = some g
  data : ∀ u g d', s'.vars.gfu.map u = some g → s'.vars.data[g]? = some d' →
    (∃ d, s.vars.gfu.map u = some g ∧ s.vars.data[g]? = some d ∧ d'.mode = d.mode ∧ d'.assumed = d.assumed) ∨
    (s.vars.gfu.map u = none ∧ d'.mode = .sample ∧ d'.assumed = false)
  gfs : ∀ v g, s.vars.gfs.map v = some g → s'.vars.gfs.map v = some g
  asm : s'.asm.lits = s.asm.lits

theorem Fresh.refl (s : St α) : Fresh s s :=
  ⟨fun _ _ h => h, fun _ _ d h1 h2 => .inl ⟨d, h1, h2, rfl, rfl⟩, fun _ _ h => h, rfl⟩

theorem Fresh.trans {a b c : St α} (h : Fresh a b) (k : Fresh b c) : Fresh a c := by
  refine ⟨fun u g q => k.gfu u g (h.gfu u g q), fun u g d' q1 q2 => ?_, fun v g q => k.gfs v g (h.gfs v g q), k.asm.trans h.asm⟩
  rcases k.data u g d' q1 q2 with ⟨d, q3, q4, q5, q6⟩ | ⟨q3, q4, q5⟩
  · rcases h.data u g d q3 q4 with ⟨d0, q7, q8, q9, q10⟩ | ⟨q7, q8, q9⟩
    · exact .inl ⟨d0, q7, q8, q5.trans q9, q6.trans q10⟩
    · exact .inr ⟨q7, q5.trans q8, q6.trans q9⟩
  · refine .inr ⟨?_, q4, q5⟩
    cases hu : a.vars.gfu.map u with
    | none => rfl
    | some g0 => rw [h.gfu u g0 hu] at q3; cases q3

/-- Same names, modes and flags. -/
theorem Lab.fresh {s s' : St α} (h : Lab s s') (hg : s'.vars.gfs = s.vars.gfs) (ha : s'.asm.lits = s.asm.lits) : Fresh s s' := by
  refine ⟨fun u g q => by rw [h.gfu]; exact q, fun u g d' q1 q2 => .inl ?_, fun v g q => by rw [hg]; exact q, ha⟩
  rw [h.gfu] at q1
  have := h.lab g
  unfold Solver.lab at this
  rw [q2] at this
  cases hd : s.vars.data[g]? with
  | none => rw [hd] at this; cases this
  | some d =>
    rw [hd] at this
    have := Option.some.inj this
    exact ⟨d, q1, rfl, congrArg Prod.fst this, congrArg Prod.snd this⟩

theorem Grown.fresh' {a b : Abs} {ids' : Nat → Nat} {s s' : St α} (h : Grown a ids s b ids' s') (hv : VInv s.vars) : Fresh s s' := by
  refine ⟨h.more.gfu, fun u g d' q1 q2 => ?_, h.more.gfs, by rw [h.same.eq]⟩
  cases hu : s.vars.gfu.map u with
  | none => exact .inr ⟨rfl, h.fresh u g d' hu q1 q2⟩
  | some g0 =>
    left
    have := h.more.gfu u g0 hu
    rw [q1] at this
    obtain rfl := Option.some.inj this
    obtain ⟨d, q3, q4, _⟩ := hv.ulive u g hu
    have := h.more.data g d q3 q4
    rw [q2] at this
    obtain rfl := Option.some.inj this
    exact ⟨d', rfl, q3, rfl, rfl⟩

theorem Marked.fresh {m : Marks} {s s' : St α} (h : Marked m s) (hv : VInv s'.vars) (k : Fresh s s') : Marked m s' := by
  refine ⟨fun u g d' q1 q2 => ?_, fun u hu => ?_, fun u hu => ?_, fun u g d' q1 q2 q3 => ?_⟩
  · rcases k.data u g d' q1 q2 with ⟨d, q3, q4, q5, _⟩ | ⟨q3, q4, _⟩
    · rw [q5]; exact h.wit u g d q3 q4
    · rw [q4]
      refine ⟨fun q => (by cases q), fun q => ?_⟩
      have := h.named u q
      rw [q3] at this; cases this
  · obtain ⟨g, hg⟩ := Option.isSome_iff_exists.1 (h.named u hu)
    rw [k.gfu u g hg]; rfl
  · obtain ⟨g, d, q1, q2, q3⟩ := h.now u hu
    have q4 := k.gfu u g q1
    obtain ⟨d', q5, _⟩ := hv.ulive u g q4
    rcases k.data u g d' q4 q5 with ⟨d0, q6, q7, _, q8⟩ | ⟨q6, _⟩
    · rw [q2] at q7
      obtain rfl := Option.some.inj q7
      exact ⟨g, d', q4, q5, q8.trans q3⟩
    · rw [q1] at q6; cases q6
  · rcases k.data u g d' q1 q2 with ⟨d, q4, q5, _, q6⟩ | ⟨_, _, q5⟩
    · rcases h.flag u g d q4 q5 (q6.symm.trans q3) with ⟨q7, l, hl, q8⟩ | q7
      · exact .inl ⟨q7, l, by rw [k.asm]; exact hl, k.gfs _ _ q8⟩
      · exact .inr q7
    · rw [q5] at q3; cases q3

/-- `solve`. -/
theorem Marked.solve {m : Marks} {s s' : St α} (h : Marked m s) (k : Lab s s') : Marked { m with old := m.now ++ m.old } s' := by
  have key : ∀ (g : Nat) (d' : VarData), s'.vars.data[g]? = some d' → ∃ d : VarData, s.vars.data[g]? = some d ∧ d'.mode = d.mode ∧ d'.assumed = d.assumed := by
    intro g d' q
    have := k.lab g
    unfold Solver.lab at this
    rw [q] at this
    cases hd : s.vars.data[g]? with
    | none => rw [hd] at this; cases this
    | some d =>
      rw [hd] at this
      have := Option.some.inj this
      exact ⟨d, rfl, congrArg Prod.fst this, congrArg Prod.snd this⟩
  refine ⟨fun u g d' q1 q2 => ?_, fun u hu => by rw [k.gfu]; exact h.named u hu, fun u hu => ?_, fun u g d' q1 q2 q3 => ?_⟩
  · rw [k.gfu] at q1
    obtain ⟨d, q3, q4, _⟩ := key g d' q2
    rw [q4]; exact h.wit u g d q1 q3
  · obtain ⟨g, d, q1, q2, q3⟩ := h.now u hu
    have := k.lab g
    unfold Solver.lab at this
    rw [q2] at this
    cases hd : s'.vars.data[g]? with
    | none => rw [hd] at this; cases this
    | some d' =>
      rw [hd] at this
      have := Option.some.inj this
      exact ⟨g, d', by rw [k.gfu]; exact q1, hd, (congrArg Prod.snd this).trans q3⟩
  · rw [k.gfu] at q1
    obtain ⟨d, q4, _, q5⟩ := key g d' q2
    rcases h.flag u g d q1 q4 (q5.symm.trans q3) with ⟨q6, _⟩ | q6
    · exact .inr (List.mem_append_left _ q6)
    · exact .inr (List.mem_append_right _ q6)

theorem Marked.loadClause {e : Env α} (he : e.Ok) {a : Abs} {s s' : St α} {m : Marks} (h : Inv a ids s) (hm : Marked m s) {c : List Lit}
    (hs : s.loadClause e c = .ok s') : Marked m s' := by
  obtain ⟨k1, _⟩ | ⟨k1, k2⟩ | ⟨s1, r1, b, ids1, k1, k2, k3, k4⟩ := h.step he (.addClause c)
  · unfold St.step at k1
    simp only at k1
    rw [hs] at k1; cases k1
  · obtain ⟨n, hn⟩ := k2; cases hn
  have hs1 : s1 = s' := by
    unfold St.step at k1
    simp only at k1
    rw [hs, ok_bind] at k1
    cases k1; rfl
  subst hs1
  unfold St.loadClause at hs
  by_cases hu : s.sat = .unsat
  · rw [if_pos hu] at hs; cases hs; exact hm
  rw [if_neg hu] at hs
  obtain ⟨⟨t, ms⟩, h1, h2⟩ := bind_inv hs
  have hl := (k4.resolve_left hu)
  have q1 := h.setSat (t := if s.sat = .sat then .unknown else s.sat) (fe := false)
    (by by_cases hx : s.sat = .sat <;> simp [hx]) (by by_cases hx : s.sat = .sat <;> simp [hx])
    (by by_cases hx : s.sat = .sat <;> simp [hx])
  obtain ⟨q2, _⟩ := q1.fullRestart
  obtain ⟨u, ms', ids', e1, g, _⟩ := St.solverFromUserLits_ok he c q2.b q2.n hl
  rw [e1] at h1
  cases h1
  have f1 : Fresh s t := by
    have := g.fresh' q2.b.v
    exact ⟨this.gfu, this.data, this.gfs, this.asm⟩
  have f2 := St.loadLits_lab h2
  have f3 := St.loadLits_keep h2
  exact hm.fresh k3.b.v (f1.trans (f2.fresh f3.1 f3.2))

theorem forall₂_left {β γ : Type} {R : β → γ → Prop} {as : List β} {bs : List γ} (h : List.Forall₂ R as bs) :
    ∀ a ∈ as, ∃ b ∈ bs, R a b := by
  induction h with
  | nil => intro a ha; cases ha
  | @cons a b as bs h1 h2 ih =>
    intro x hx
    rcases List.mem_cons.1 hx with rfl | hx
    · exact ⟨b, by simp, h1⟩
    · obtain ⟨y, hy, q⟩ := ih x hx
      exact ⟨y, by simp [hy], q⟩

theorem forall₂_right {β γ : Type} {R : β → γ → Prop} {as : List β} {bs : List γ} (h : List.Forall₂ R as bs) :
    ∀ b ∈ bs, ∃ a ∈ as, R a b := by
  induction h with
  | nil => intro a ha; cases ha
  | @cons a b as bs h1 h2 ih =>
    intro x hx
    rcases List.mem_cons.1 hx with rfl | hx
    · exact ⟨a, by simp, h1⟩
    · obtain ⟨y, hy, q⟩ := ih x hx
      exact ⟨y, by simp [hy], q⟩

theorem Marked.lab {m : Marks} {s s' : St α} (h : Marked m s) (k : Lab s s') (hg : s'.vars.gfs = s.vars.gfs)
    (ha : s'.asm.lits = s.asm.lits) : Marked m s' := by
  have key : ∀ (g : Nat) (d' : VarData), s'.vars.data[g]? = some d' → ∃ d : VarData, s.vars.data[g]? = some d ∧ d'.mode = d.mode ∧ d'.assumed = d.assumed := by
    intro g d' q
    have := k.lab g
    unfold Solver.lab at this
    rw [q] at this
    cases hd : s.vars.data[g]? with
    | none => rw [hd] at this; cases this
    | some d =>
      rw [hd] at this
      have := Option.some.inj this
      exact ⟨d, rfl, congrArg Prod.fst this, congrArg Prod.snd this⟩
  refine ⟨fun u g d' q1 q2 => ?_, fun u hu => by rw [k.gfu]; exact h.named u hu, fun u hu => ?_, fun u g d' q1 q2 q3 => ?_⟩
  · rw [k.gfu] at q1
    obtain ⟨d, q3, q4, _⟩ := key g d' q2
    rw [q4]; exact h.wit u g d q1 q3
  · obtain ⟨g, d, q1, q2, q3⟩ := h.now u hu
    have := k.lab g
    unfold Solver.lab at this
    rw [q2] at this
    cases hd : s'.vars.data[g]? with
    | none => rw [hd] at this; cases this
    | some d' =>
      rw [hd] at this
      have := Option.some.inj this
      exact ⟨g, d', by rw [k.gfu]; exact q1, hd, (congrArg Prod.snd this).trans q3⟩
  · rw [k.gfu] at q1
    obtain ⟨d, q4, _, q5⟩ := key g d' q2
    rcases h.flag u g d q1 q4 (q5.symm.trans q3) with ⟨q6, l, hl, q7⟩ | q6
    · exact .inl ⟨q6, l, by rw [ha]; exact hl, by rw [hg]; exact q7⟩
    · exact .inr q6

theorem Marked.newVar {e : Env α} (he : e.Ok) {a : Abs} {s s' : St α} {m : Marks} (h : Inv a ids s) (hm : Marked m s) {u : Nat}
    (hs : St.newUserVar e { s with formulaEmpty := false } = .ok (s', u)) : Marked m s' := by
  have h0 : Inv a ids { s with formulaEmpty := false } :=
    ⟨⟨h.b.v, h.b.q, h.b.fl, h.b.l0, h.b.inj, h.b.hidA, h.b.run, h.b.sat⟩, h.n, h.asm, h.as, h.unsat, h.under⟩
  obtain ⟨t, g, ids', e1, e2, _⟩ := St.globalFromUser_ok he h0.b h0.n (St.nextUser e { s with formulaEmpty := false }) false (by simp)
  unfold St.newUserVar at hs
  simp only at hs
  rw [e1, ok_bind] at hs
  cases hs
  have k := e2.fresh' h0.b.v
  exact hm.fresh e2.base.v ⟨k.gfu, k.data, k.gfs, k.asm⟩

/-- `assume`. -/
theorem Marked.assume {e : Env α} (he : e.Ok) {a : Abs} {s s' : St α} {m : Marks} (h : Inv a ids s) (hm : Marked m s) {ls : List Lit}
    (hs : s.assume e ls = .ok s') : Marked { m with now := ls.map Lit.var } s' := by
  have hc : SampleOk s.vars ls := by
    rcases h.step he (.assume ls) with ⟨k1, _⟩ | ⟨_, n, hn⟩ | ⟨_, _, _, _, _, _, _, k⟩
    · unfold St.step at k1
      simp only at k1
      rw [hs] at k1; cases k1
    · cases hn
    · exact k
  unfold St.assume at hs
  simp only at hs
  obtain ⟨h1, _⟩ := h.fullRestart
  have h2 := h1.setSat (t := if s.fullRestart.sat = SatState.unsat then SatState.unsat else SatState.unknown) (fe := s.fullRestart.formulaEmpty)
    (by by_cases hx : s.fullRestart.sat = .unsat <;> simp [hx]) (by by_cases hx : s.fullRestart.sat = .unsat <;> simp [hx])
    (by by_cases hx : s.fullRestart.sat = .unsat <;> simp [hx])
  obtain ⟨t, ht⟩ : ∃ t : St α, t = { s.fullRestart with sat := if s.fullRestart.sat = SatState.unsat then SatState.unsat else SatState.unknown } := ⟨_, rfl⟩
  have htv : t.vars = s.vars := by rw [ht]; rfl
  have htl : t.asm.lits = s.asm.lits := by rw [ht]; rfl
  have h2' : Inv a ids t := by rw [ht]; exact h2
  have hta : s.fullRestart.asm.lits = t.asm.lits := by rw [ht]
  rw [← ht, hta] at hs
  clear ht h2 h1
  -- clearing
  obtain ⟨D, e1, e2⟩ := St.updLoop_ok (f := fun d => { d with assumed := false }) t.asm.lits h2'.b.v h2'.asm.pres
    (fun d => ⟨rfl, rfl⟩) (fun d => rfl)
  have hD : DataLe t.vars D := DataLe.upd (f := fun d => { d with assumed := false })
    (P := fun k => ∃ l ∈ t.asm.lits, t.vars.gfs.map l.var = some k) (fun d => ⟨rfl, rfl, rfl, id⟩) e2
  have b3 := h2'.b.dataLe hD (by
    intro g d' k1 k2
    rw [e2 g] at k1
    split at k1
    · cases k3 : t.vars.data[g]? with
      | none => rw [k3] at k1; cases k1
      | some d => rw [k3] at k1; obtain rfl := Option.some.inj k1; rfl
    · exact h2'.b.hidA g d' k1 k2)
  have n3 := h2'.n.dataLe hD
  rw [St.setAssumed_eq, e1, ok_bind] at hs
  have hso : SampleOk { t.vars with data := D } ls := by
    intro l hl g d k1 k2
    obtain ⟨d0, k3, k4, k5, _⟩ := hD.some_ g d k2
    rw [k5]
    exact hc l hl g d0 (by rw [← htv]; exact k1) (by rw [← htv]; exact k3)
  have m3 : Marked { m with now := [] } ({ t with vars := { t.vars with data := D } } : St α) := by
    refine ⟨fun u g d' q1 q2 => ?_, fun u hu => ?_, fun u hu => (by cases hu), fun u g d' q1 q2 q3 => ?_⟩
    · obtain ⟨d, k3, _, k5, _⟩ := hD.some_ g d' q2
      rw [k5]
      exact hm.wit u g d (by rw [← htv]; exact q1) (by rw [← htv]; exact k3)
    · show (t.vars.gfu.map u).isSome = true
      rw [htv]; exact hm.named u hu
    · right
      have q1 : t.vars.gfu.map u = some g := q1
      have q2 : D[g]? = some d' := q2
      rw [e2 g] at q2
      split at q2
      · cases k3 : t.vars.data[g]? with
        | none => rw [k3] at q2; cases q2
        | some d => rw [k3] at q2; obtain rfl := Option.some.inj q2; cases q3
      · rename_i hn
        rcases hm.flag u g d' (by rw [← htv]; exact q1) (by rw [← htv]; exact q2) q3 with ⟨_, l, k1, k2⟩ | k
        · exact absurd ⟨l, by rw [htl]; exact k1, by rw [htv]; exact k2⟩ hn
        · exact k
  -- creating
  obtain ⟨u, ms, ids', f1, g, lk, so⟩ := St.solverFromUserLits_ok he ls b3 n3 hso
  rw [f1, ok_bind] at hs
  simp only at hs
  have m4 := m3.fresh g.base.v (g.fresh' b3.v)
  -- setting
  obtain ⟨D', k1, k2⟩ := St.updLoop_ok (f := fun d => { d with assumed := true }) ms (s := { u with asm := { u.asm with lits := ms } })
    g.base.v (litOk_pres lk) (fun d => ⟨rfl, rfl⟩) (fun d => rfl)
  rw [St.setAssumed_eq, k1, ok_bind] at hs
  obtain ⟨L, hL⟩ := St.emit_ok (s := { u with asm := { u.asm with lits := ms }, vars := { u.vars with data := D' } })
    (x := .assumptions ms) (litOk_pres lk)
  rw [hL] at hs
  cases hs
  have k2 : ∀ k, D'[k]? = if ∃ l ∈ ms, u.vars.gfs.map l.var = some k then (u.vars.data[k]?).map (fun d => { d with assumed := true })
      else u.vars.data[k]? := k2
  have old : ∀ (k : Nat) (d' : VarData), D'[k]? = some d' → ∃ d : VarData, u.vars.data[k]? = some d ∧ d'.mode = d.mode := by
    intro k d' q
    rw [k2 k] at q
    split at q
    · obtain ⟨d, q1, rfl⟩ := Option.map_eq_some_iff.1 q
      exact ⟨d, q1, rfl⟩
    · exact ⟨d', q, rfl⟩
  refine ⟨fun v k d' q1 q2 => ?_, m4.named, fun v hv => ?_, fun v k d' q1 q2 q3 => ?_⟩
  · obtain ⟨d, q3, q4⟩ := old k d' q2
    rw [q4]; exact m4.wit v k d q1 q3
  · obtain ⟨l, hl, rfl⟩ := List.mem_map.1 hv
    obtain ⟨x, hx, j, q1, q2, _⟩ : ∃ x ∈ ms, LitOk u.vars l x := forall₂_left lk l hl
    obtain ⟨d, q3, _⟩ := g.base.v.ulive _ _ q1
    refine ⟨j, { d with assumed := true }, q1, ?_, rfl⟩
    show D'[j]? = _
    rw [k2 j, if_pos ⟨x, hx, q2⟩, q3]; rfl
  · have q1 : u.vars.gfu.map v = some k := q1
    have q2 : D'[k]? = some d' := q2
    rw [k2 k] at q2
    split at q2
    · rename_i hex
      obtain ⟨x, hx, q4⟩ := hex
      left
      refine ⟨?_, x, hx, q4⟩
      obtain ⟨l, hl, j, q5, q6, _⟩ : ∃ l ∈ ls, LitOk u.vars l x := forall₂_right lk x hx
      rw [q4] at q6
      obtain rfl := Option.some.inj q6
      have : l.var = v := by
        rw [g.base.v.us] at q5 q1
        rw [q5] at q1; exact Option.some.inj q1
      rw [← this]; exact List.mem_map_of_mem hl
    · right
      rcases m4.flag v k d' q1 q2 q3 with ⟨q, _⟩ | q
      · cases q
      · exact q

/-- The marks after a change of the mode. -/
def modeMarks (m : Marks) (u : Nat) : Mode → Marks
  | .witness => { m with witness := u :: m.witness }
  | .sample => { m with witness := m.witness.filter (· ≠ u) }
  | .hide => { m with witness := m.witness.filter (· ≠ u), old := m.old.filter (· ≠ u) }

/-- `set_sampling_mode` for a named variable that is not assumed. -/
theorem Marked.setMode {e : Env α} {a : Abs} {s s' : St α} {m : Marks} (h : Inv a ids s) (hm : Marked m s) {u g : Nat} {o : Mode}
    (hu : s.vars.gfu.map u = some g) {r : Option Nat} (hs : s.setMode e g o = .ok (s', r)) :
    Marked (modeMarks m u o) s' := by
  obtain ⟨d, hd, hdel, hmode⟩ := h.b.v.ulive u g hu
  have inj : ∀ v, s.vars.gfu.map v = some g → v = u := by
    intro v hv
    rw [h.b.v.us] at hu hv
    rw [hu] at hv; exact (Option.some.inj hv).symm
  unfold St.setMode St.data? at hs
  rw [hd] at hs
  simp only at hs
  rw [if_neg (by rw [hdel]; simp)] at hs
  split at hs
  · cases hs
  rename_i hass
  split at hs
  · rename_i hmo
    cases hs
    cases o with
    | hide => exact absurd hmo hmode
    | witness =>
      have hw : u ∈ m.witness := (hm.wit u g d hu hd).1 hmo
      refine ⟨fun v k d' q1 q2 => (hm.wit v k d' q1 q2).trans ⟨List.mem_cons_of_mem _, fun q => ?_⟩, fun v hv => ?_, hm.now, hm.flag⟩
      · rcases List.mem_cons.1 q with rfl | q
        · exact hw
        · exact q
      · rcases List.mem_cons.1 hv with rfl | hv
        · rw [hu]; rfl
        · exact hm.named v hv
    | sample =>
      have hw : u ∉ m.witness := fun q => by
        have := (hm.wit u g d hu hd).2 q
        rw [hmo] at this; cases this
      have : m.witness.filter (· ≠ u) = m.witness := List.filter_eq_self.2 (fun v hv => by
        simp only [ne_eq, decide_not, Bool.not_eq_true', decide_eq_false_iff_not]
        rintro rfl; exact hw hv)
      unfold modeMarks
      simp only [this]
      exact hm
  rename_i hmo
  have hnow : ∀ v ∈ m.now, v ≠ u := by
    rintro v hv rfl
    obtain ⟨g', d', q1, q2, q3⟩ := hm.now v hv
    rw [hu] at q1
    obtain rfl := Option.some.inj q1
    rw [hd] at q2
    obtain rfl := Option.some.inj q2
    exact hass q3
  have hget : ∀ k, (s.vars.data.set g { d with mode := o })[k]? = if k = g then some { d with mode := o } else s.vars.data[k]? := set_get hd
  by_cases hh : o = .hide
  · subst hh
    simp only [ne_eq, not_true_eq_false, if_false, if_true, hmode] at hs
    rw [(h.b.v.us u g).1 hu] at hs
    obtain ⟨t, h1, hs⟩ := bind_inv hs
    cases hs
    have hl := St.deleteGlobal_lab h1
    have hk := St.deleteGlobal_keep h1
    refine Marked.lab ?_ hl hk.1 hk.2
    have hgfu : ∀ v, (s.vars.gfu.remove u).map v = if v = u then none else s.vars.gfu.map v := fun v => rfl
    have other : ∀ {v k : Nat} {d' : VarData}, (s.vars.gfu.remove u).map v = some k →
        (s.vars.data.set g { d with mode := .hide })[k]? = some d' → v ≠ u ∧ s.vars.gfu.map v = some k ∧ s.vars.data[k]? = some d' := by
      intro v k d' q1 q2
      rw [hgfu] at q1
      by_cases hv : v = u
      · rw [if_pos hv] at q1; cases q1
      rw [if_neg hv] at q1
      rw [hget k, if_neg (by rintro rfl; exact hv (inj v q1))] at q2
      exact ⟨hv, q1, q2⟩
    have back : ∀ {v k : Nat}, v ≠ u → s.vars.gfu.map v = some k → (s.vars.gfu.remove u).map v = some k ∧
        (s.vars.data.set g { d with mode := .hide })[k]? = s.vars.data[k]? := by
      intro v k hv q1
      refine ⟨by rw [hgfu, if_neg hv]; exact q1, ?_⟩
      rw [hget k, if_neg (by rintro rfl; exact hv (inj v q1))]
    refine ⟨fun v k d' q1 q2 => ?_, fun v hv => ?_, fun v hv => ?_, fun v k d' q1 q2 q3 => ?_⟩
    · obtain ⟨hv, q1, q2⟩ := other q1 q2
      rw [hm.wit v k d' q1 q2]
      simp [modeMarks, hv]
    · obtain ⟨hv1, hv2⟩ := List.mem_filter.1 hv
      obtain ⟨k, hk⟩ := Option.isSome_iff_exists.1 (hm.named v hv1)
      show ((s.vars.gfu.remove u).map v).isSome = true
      rw [(back (by simpa using hv2) hk).1]; rfl
    · obtain ⟨k, d', q1, q2, q3⟩ := hm.now v hv
      obtain ⟨q4, q5⟩ := back (hnow v hv) q1
      exact ⟨k, d', q4, q5.trans q2, q3⟩
    · obtain ⟨hv, q1, q2⟩ := other q1 q2
      rcases hm.flag v k d' q1 q2 q3 with q | q
      · exact .inl q
      · exact .inr (List.mem_filter.2 ⟨q, by simpa using hv⟩)
  · simp only [ne_eq, hh, not_false_eq_true, if_true, if_false, hmode] at hs
    cases hs
    refine Marked.lab (s := ({ s with vars := { s.vars with data := s.vars.data.set g { d with mode := o } } } : St α)) ?_ (Lab.of rfl) rfl rfl
    have old : ∀ {v k : Nat} {d' : VarData}, (s.vars.data.set g { d with mode := o })[k]? = some d' →
        ∃ d0, s.vars.data[k]? = some d0 ∧ d'.assumed = d0.assumed ∧ (k = g → d'.mode = o) ∧ (k ≠ g → d' = d0) := by
      intro v k d' q
      rw [hget k] at q
      by_cases hk : k = g
      · rw [if_pos hk] at q
        obtain rfl := Option.some.inj q
        exact ⟨d, by rw [hk]; exact hd, rfl, fun _ => rfl, fun q => absurd hk q⟩
      · rw [if_neg hk] at q
        exact ⟨d', q, rfl, fun q => absurd q hk, fun _ => rfl⟩
    have hw : ∀ {v k : Nat}, s.vars.gfu.map v = some k → (k = g ↔ v = u) := by
      intro v k q
      constructor
      · rintro rfl; exact inj v q
      · rintro rfl; rw [hu] at q; exact (Option.some.inj q).symm
    have now : ∀ v ∈ m.now, ∃ k d', s.vars.gfu.map v = some k ∧ (s.vars.data.set g { d with mode := o })[k]? = some d' ∧ d'.assumed = true := by
      intro v hv
      obtain ⟨k, d', q1, q2, q3⟩ := hm.now v hv
      refine ⟨k, d', q1, ?_, q3⟩
      rw [hget k, if_neg (fun q => hnow v hv ((hw q1).1 q))]; exact q2
    have flag : ∀ v k d', s.vars.gfu.map v = some k → (s.vars.data.set g { d with mode := o })[k]? = some d' → d'.assumed = true →
        (v ∈ m.now ∧ ∃ l ∈ s.asm.lits, s.vars.gfs.map l.var = some k) ∨ v ∈ m.old := by
      intro v k d' q1 q2 q3
      obtain ⟨d0, q4, q5, _⟩ := old (v := v) q2
      exact hm.flag v k d0 q1 q4 (q5.symm.trans q3)
    cases o with
    | hide => exact absurd rfl hh
    | witness =>
      refine ⟨fun v k d' q1 q2 => ?_, fun v hv => ?_, now, flag⟩
      · obtain ⟨d0, q3, _, q5, q6⟩ := old (v := v) q2
        by_cases hk : k = g
        · rw [q5 hk]; simp [modeMarks, (hw q1).1 hk]
        · have hvu : v ≠ u := fun q => hk ((hw q1).2 q)
          rw [q6 hk, hm.wit v k d0 q1 q3]
          simp [modeMarks, hvu]
      · rcases List.mem_cons.1 hv with rfl | hv
        · show (s.vars.gfu.map v).isSome = true
          rw [hu]; rfl
        · exact hm.named v hv
    | sample =>
      refine ⟨fun v k d' q1 q2 => ?_, fun v hv => hm.named v (List.mem_filter.1 hv).1, now, flag⟩
      obtain ⟨d0, q3, _, q5, q6⟩ := old (v := v) q2
      by_cases hk : k = g
      · rw [q5 hk]; simp [modeMarks, (hw q1).1 hk]
      · have hvu : v ≠ u := fun q => hk ((hw q1).2 q)
        rw [q6 hk, hm.wit v k d0 q1 q3]
        simp [modeMarks, hvu]

/-- `witness_var`, `sample_var`, `hide_var`. -/
theorem Marked.setUserMode {e : Env α} (he : e.Ok) {a : Abs} {s s' : St α} {m : Marks} (h : Inv a ids s) (hm : Marked m s) {u : Nat}
    {o : Mode} (hs : s.setUserMode e u o = .ok s') :
    Marked (modeMarks m u o) s' := by
  obtain ⟨t, g, ids', e1, e2, e3, _⟩ := St.globalFromUser_ok he h.b h.n u false (by simp)
  unfold St.setUserMode at hs
  rw [e1, ok_bind] at hs
  obtain ⟨⟨q, r⟩, h1, hs⟩ := bind_inv hs
  cases hs
  exact Marked.setMode (h.grown e2) (hm.fresh e2.base.v (e2.fresh' h.b.v)) e3 h1

/-- One hidden variable becomes visible. -/
theorem Marked.unhide {e : Env α} (he : e.Ok) {a : Abs} {s s' : St α} {m : Marks} (h : Inv a ids s) (hm : Marked m s) {g : Nat} {d : VarData}
    (hd : s.vars.data[g]? = some d) (hdel : d.deleted = false) (hmode : d.mode = .hide) {u : Nat}
    (hs : s.setMode e g .witness = .ok (s', some u)) : Marked { m with witness := u :: m.witness } s' := by
  obtain ⟨t, u', e1, e2, e3, e4, _⟩ := h.unhide he hd hdel hmode
  rw [e1] at hs
  cases hs
  have hnone : s.vars.gfu.map u = none := by
    rw [h.n.name] at e3
    simpa using e3
  have hug : ∀ v, s.vars.gfu.map v = some g → False := by
    intro v hv
    obtain ⟨d', q1, _, q2⟩ := h.b.v.ulive v g hv
    rw [hd] at q1
    obtain rfl := Option.some.inj q1
    exact q2 hmode
  have hass := h.b.hidA g d hd hmode
  obtain ⟨L, hL⟩ : ∃ L, s' = { s with vars := s.vars.show_ g u d, log := L } := by
    unfold St.setMode St.data? at e1
    rw [hd] at e1
    simp only at e1
    rw [if_neg (by rw [hdel]; simp), if_neg (by rw [hass]; simp), if_neg (by rw [hmode]; simp), if_pos hmode] at e1
    simp only [ne_eq, reduceCtorEq, not_false_eq_true, if_true] at e1
    injection e1 with e1
    injection e1 with e1 e5
    injection e5 with e5
    refine ⟨s'.log, ?_⟩
    rw [← e1, ← e5]
    rfl
  have hget : ∀ k, (s.vars.show_ g u d).data[k]? = if k = g then some { d with mode := .witness } else s.vars.data[k]? := fun k => set_get hd k
  have hgfu : ∀ v, (s.vars.show_ g u d).gfu.map v = if v = u then some g else s.vars.gfu.map v := fun v => rfl
  subst hL
  have old : ∀ {v k : Nat}, v ≠ u → (s.vars.show_ g u d).gfu.map v = some k → s.vars.gfu.map v = some k ∧
      (s.vars.show_ g u d).data[k]? = s.vars.data[k]? := by
    intro v k hv q
    rw [hgfu, if_neg hv] at q
    exact ⟨q, by rw [hget, if_neg (by rintro rfl; exact hug v q)]⟩
  have back : ∀ {v k : Nat}, s.vars.gfu.map v = some k → (s.vars.show_ g u d).gfu.map v = some k ∧
      (s.vars.show_ g u d).data[k]? = s.vars.data[k]? := by
    intro v k q
    have hv : v ≠ u := by rintro rfl; rw [hnone] at q; cases q
    have : (s.vars.show_ g u d).gfu.map v = some k := by rw [hgfu, if_neg hv]; exact q
    exact ⟨this, (old hv this).2⟩
  refine ⟨fun v k d' q1 q2 => ?_, fun v hv => ?_, fun v hv => ?_, fun v k d' q1 q2 q3 => ?_⟩
  · by_cases hv : v = u
    · have q1 : (s.vars.show_ g u d).gfu.map v = some k := q1
      rw [hgfu, if_pos hv] at q1
      obtain rfl := Option.some.inj q1
      have q2 : (s.vars.show_ g u d).data[g]? = some d' := q2
      rw [hget, if_pos rfl] at q2
      obtain rfl := Option.some.inj q2
      simp [hv]
    · obtain ⟨q3, q4⟩ := old hv q1
      rw [hm.wit v k d' q3 (q4.symm.trans q2)]
      simp [hv]
  · show ((s.vars.show_ g u d).gfu.map v).isSome = true
    rw [hgfu]
    split
    · rfl
    · rename_i hvu
      rcases List.mem_cons.1 hv with hv | hv
      · exact absurd hv hvu
      · exact hm.named v hv
  · obtain ⟨k, d', q1, q2, q3⟩ := hm.now v hv
    obtain ⟨q4, q5⟩ := back q1
    exact ⟨k, d', q4, q5.trans q2, q3⟩
  · by_cases hv : v = u
    · have q1 : (s.vars.show_ g u d).gfu.map v = some k := q1
      rw [hgfu, if_pos hv] at q1
      obtain rfl := Option.some.inj q1
      have q2 : (s.vars.show_ g u d).data[g]? = some d' := q2
      rw [hget, if_pos rfl] at q2
      obtain rfl := Option.some.inj q2
      have q3 : d.assumed = true := q3
      rw [hass] at q3; cases q3
    · obtain ⟨q4, q5⟩ := old hv q1
      exact hm.flag v k d' q4 (q5.symm.trans q2) q3

theorem Marked.witness {m : Marks} {s : St α} (h : Marked m s) {ws : List Nat} (hw : ∀ v, v ∈ ws ↔ v ∈ m.witness) :
    Marked { m with witness := ws } s :=
  ⟨fun u g d q1 q2 => (h.wit u g d q1 q2).trans (hw u).symm, fun u hu => h.named u ((hw u).1 hu), h.now, h.flag⟩

theorem Marked.observeLoop {e : Env α} (he : e.Ok) : ∀ (gs : List Nat) {a : Abs} {s s' : St α} {m : Marks} {us : List Nat}, Inv a ids s →
    Marked m s → St.observeLoop e gs s = .ok (s', us) → Marked { m with witness := us ++ m.witness } s'
  | [], _, _, _, _, _, _, hm, hs => by cases hs; exact hm
  | g :: gs, a, s, s', m, us, h, hm, hs => by
    rw [St.observeLoop] at hs
    unfold St.data? at hs
    cases hd : s.vars.data[g]? with
    | none => rw [hd] at hs; cases hs
    | some d =>
      rw [hd] at hs
      simp only at hs
      split at hs
      · rename_i hc
        simp only [Bool.and_eq_true, Bool.not_eq_true', beq_iff_eq] at hc
        obtain ⟨t, u, e1, e2, _⟩ := h.unhide he hd hc.1 hc.2
        rw [e1, ok_bind] at hs
        simp only at hs
        obtain ⟨⟨q, vs⟩, h2, hs⟩ := bind_inv hs
        cases hs
        have := Marked.observeLoop he gs e2 (hm.unhide he h hd hc.1 hc.2 e1) h2
        exact this.witness (fun v => by simp only [List.mem_append, List.mem_cons]; tauto)
      · exact Marked.observeLoop he gs h hm hs

/-- Every call changes the marks as specified. -/
theorem Marked.step {e : Env α} (he : e.Ok) {a : Abs} {s s' : St α} {m : Marks} {op : Op} {r : List Nat} (h : Inv a ids s) (hm : Marked m s)
    (hs : s.step e op = .ok (s', r)) : Marked (m.after (op.call, r)) s' := by
  unfold St.step at hs
  cases op with
  | addClause c =>
    obtain ⟨t, h1, hs⟩ := bind_inv hs
    cases hs; exact hm.loadClause he h h1
  | newVar =>
    obtain ⟨⟨t, u⟩, h1, hs⟩ := bind_inv hs
    cases hs; exact hm.newVar he h h1
  | assume ls =>
    obtain ⟨t, h1, hs⟩ := bind_inv hs
    cases hs; exact hm.assume he h h1
  | solve n =>
    obtain ⟨⟨t, b⟩, h1, hs⟩ := bind_inv hs
    cases hs; exact hm.solve (St.solve_lab h1)
  | witnessVar u =>
    obtain ⟨t, h1, hs⟩ := bind_inv hs
    cases hs; exact hm.setUserMode he h h1
  | sampleVar u =>
    obtain ⟨t, h1, hs⟩ := bind_inv hs
    cases hs; exact hm.setUserMode he h h1
  | hideVar u =>
    obtain ⟨t, h1, hs⟩ := bind_inv hs
    cases hs; exact hm.setUserMode he h h1
  | observe => exact Marked.observeLoop he _ h hm hs

/-- The marks of a history describe its state. -/
theorem Exec.marked {s : St α} {h : Hist} (x : Exec s h) : Marked (marks h) s := by
  induction x with
  | new e =>
    refine ⟨fun u g d q => ?_, fun u hu => (by cases hu), fun u hu => (by cases hu), fun u g d q => ?_⟩ <;>
      exact absurd q (by simp [St.new])
  | @call s s' h op r e x he hs ih =>
    obtain ⟨a, ids, _, h2⟩ := x.inv
    rw [marks, List.foldl_append]
    exact ih.step he h2 hs

/-- No call panics unless it breaks the rules, or changes the mode of a variable assumed earlier. -/
theorem Exec.no_panic {s : St α} {h : Hist} (x : Exec s h) {e : Env α} (he : e.Ok) (op : Op) (ha : Allowed (marks h) op.call)
    (ho : ∀ u, op.call.modeOf = some u → u ∉ (marks h).old) : s.step e op ≠ .error .panic := by
  obtain ⟨a, ids, _, h2⟩ := x.inv
  have hm := x.marked
  have sample : ∀ ls : List Lit, (∀ l ∈ ls, l.var ∉ (marks h).witness) → SampleOk s.vars ls := by
    intro ls hl l hl' g d q1 q2
    obtain ⟨d', q3, _, q4⟩ := h2.b.v.ulive _ _ q1
    rw [q2] at q3
    obtain rfl := Option.some.inj q3
    have := mt (hm.wit _ g d q1 q2).1 (hl l hl')
    cases hmo : d.mode with
    | sample => rfl
    | witness => exact absurd hmo this
    | hide => exact absurd hmo q4
  have mode : ∀ u, u ∉ (marks h).now → u ∉ (marks h).old →
      ∀ (g : Nat) (d : VarData), s.vars.gfu.map u = some g → s.vars.data[g]? = some d → d.assumed = false := by
    intro u h1 h2 g d q1 q2
    cases hd : d.assumed with
    | false => rfl
    | true =>
      rcases hm.flag u g d q1 q2 hd with ⟨k, _⟩ | k
      · exact absurd k h1
      · exact absurd k h2
  have legal : Legal s op := by
    cases op with
    | addClause c => exact .inr (sample c ha)
    | assume ls => exact sample ls ha
    | witnessVar u => exact mode u ha (ho u rfl)
    | sampleVar u => exact mode u ha (ho u rfl)
    | hideVar u => exact mode u ha (ho u rfl)
    | newVar => trivial
    | solve n => trivial
    | observe => trivial
  rcases h2.step he op with ⟨_, k⟩ | ⟨k, _⟩ | ⟨_, _, _, _, k, _⟩
  · exact absurd legal k
  · rw [k]; exact fun q => by cases q
  · rw [k]; exact fun q => by cases q

/-- A call that breaks the rules panics, except that a clause is ignored after a contradiction. -/
theorem Exec.rejects {s : St α} {h : Hist} (x : Exec s h) {e : Env α} (he : e.Ok) (op : Op) (ha : ¬ Allowed (marks h) op.call) :
    s.step e op = .error .panic ∨ (s.sat = .unsat ∧ ∃ c, op = .addClause c) := by
  obtain ⟨a, ids, _, h2⟩ := x.inv
  have hm := x.marked
  have sample : ∀ ls : List Lit, SampleOk s.vars ls → ∀ l ∈ ls, l.var ∉ (marks h).witness := by
    intro ls hl l hl' hw
    obtain ⟨g, hg⟩ := Option.isSome_iff_exists.1 (hm.named _ hw)
    obtain ⟨d, q1, _⟩ := h2.b.v.ulive _ _ hg
    have q2 := (hm.wit _ g d hg q1).2 hw
    rw [hl l hl' g d hg q1] at q2; cases q2
  have mode : ∀ u, (∀ (g : Nat) (d : VarData), s.vars.gfu.map u = some g → s.vars.data[g]? = some d → d.assumed = false) →
      u ∉ (marks h).now := by
    intro u k hu
    obtain ⟨g, d, q1, q2, q3⟩ := hm.now u hu
    rw [k g d q1 q2] at q3; cases q3
  rcases h2.step he op with ⟨k, _⟩ | ⟨_, n, rfl⟩ | ⟨_, _, _, _, k1, _, _, k⟩
  · exact .inl k
  · exact absurd trivial ha
  · cases op with
    | addClause c =>
      rcases k with k | k
      · exact .inr ⟨k, c, rfl⟩
      · exact absurd (sample c k) ha
    | assume ls => exact absurd (sample ls k) ha
    | witnessVar u => exact absurd (mode u k) ha
    | sampleVar u => exact absurd (mode u k) ha
    | hideVar u => exact absurd (mode u k) ha
    | newVar => exact absurd trivial ha
    | solve n => exact absurd trivial ha
    | observe => exact absurd trivial ha

end Varisat.Solver
