import Verif.Proof.Solver.SolveLog
/-!
# If all variables are those of the user, `solve` deletes none
-/
namespace Varisat.Solver

variable {α : Type} [LinearOrder α]

/-- No clause is added and no variable deleted. -/
def Inner : ProofStep → Prop
  | .addClause _ | .deleteVar _ => False
  | _ => True

/-- All variables in use have a name of the user. -/
def AllUser (x : Vars) : Prop := ∀ v g, x.gfs.map v = some g → (x.ufg.map g).isSome

/-- The variables in use become fewer. The steps of the proof are inner ones if all variables are those of the user. -/
structure Keeps (s s' : St α) : Prop where
  user : s'.vars.ufg = s.vars.ufg
  gfs : ∀ v g, s'.vars.gfs.map v = some g → s.vars.gfs.map v = some g
  log : AllUser s.vars → ∃ L, s'.log = s.log ++ L ∧ ∀ st ∈ L, Inner st

theorem Keeps.all {s s' : St α} (h : Keeps s s') (k : AllUser s.vars) : AllUser s'.vars := by
  intro v g hv
  rw [h.user]
  exact k v g (h.gfs v g hv)

theorem Keeps.trans {a b c : St α} (h : Keeps a b) (k : Keeps b c) : Keeps a c := by
  refine ⟨k.user.trans h.user, fun v g q => h.gfs v g (k.gfs v g q), fun q => ?_⟩
  obtain ⟨L, h1, h2⟩ := h.log q
  obtain ⟨M, k1, k2⟩ := k.log (h.all q)
  refine ⟨L ++ M, by rw [k1, h1, List.append_assoc], fun st hst => ?_⟩
  rcases List.mem_append.1 hst with q | q
  · exact h2 st q
  · exact k2 st q

theorem Keeps.same {s s' : St α} (h : s'.log = s.log) (h1 : s'.vars.ufg = s.vars.ufg) (h2 : s'.vars.gfs.map = s.vars.gfs.map) : Keeps s s' :=
  ⟨h1, fun v g q => by rw [← h2]; exact q, fun _ => ⟨[], by simpa using h, fun _ h => by cases h⟩⟩
theorem Keeps.pre {a b c : St α} (k : Keeps b c) (h : b.log = a.log) (h1 : b.vars.ufg = a.vars.ufg) (h2 : b.vars.gfs.map = a.vars.gfs.map) :
    Keeps a c := (Keeps.same h h1 h2).trans k
theorem Keeps.refl (s : St α) : Keeps s s := .same rfl rfl rfl
theorem Keeps.one {s s' : St α} {st : ProofStep} (h : s'.log = s.log ++ [st]) (h1 : s'.vars.ufg = s.vars.ufg)
    (h2 : s'.vars.gfs.map = s.vars.gfs.map) (hs : Inner st) : Keeps s s' :=
  ⟨h1, fun v g q => by rw [← h2]; exact q, fun _ => ⟨[st], h, fun x q => by rw [List.mem_singleton.1 q]; exact hs⟩⟩

namespace St

theorem inner_map {f : Nat → Option Nat} {x y : ProofStep} (h : mapStep? f x = some y) (hx : Inner x) : Inner y := by
  cases x <;> simp only [mapStep?, Option.map_eq_some_iff] at h
  all_goals first
    | (injection h with h; subst h; exact hx)
    | (obtain ⟨z, _, rfl⟩ := h; first | trivial | exact hx)

theorem emit_keeps {s s' : St α} {x : ProofStep} (h : s.emit x = .ok s') (hx : Inner x := by trivial) : Keeps s s' := by
  unfold emit at h
  split at h
  · rename_i y hy
    cases h
    exact Keeps.one rfl rfl rfl (inner_map hy hx)
  · cases h

theorem emitAll_keeps : ∀ {xs : List ProofStep} {s s' : St α}, emitAll xs s = .ok s' → (∀ x ∈ xs, Inner x) → Keeps s s'
  | [], _, _, h, _ => by cases h; exact Keeps.refl _
  | x :: xs, s, s', h, hx => by
    rw [emitAll] at h
    obtain ⟨t, h1, h⟩ := bind_inv h
    exact (emit_keeps h1 (hx x (by simp))).trans (emitAll_keeps h fun y hy => hx y (by simp [hy]))

theorem updSolverData_keeps {s s' : St α} {v : Nat} {f : VarData → VarData} (h : s.updSolverData v f = .ok s') : Keeps s s' := by
  unfold updSolverData at h
  split at h
  · cases h
  · split at h
    · cases h; exact Keeps.same rfl rfl rfl
    · cases h

theorem removeSolverVar_keeps {s s' : St α} {v : Nat} (h : s.removeSolverVar v = .ok s') : Keeps s s' := by
  unfold removeSolverVar at h
  split at h
  · cases h
  · rename_i g hg
    simp only at h
    have hlog : ∀ {t : St α}, t.deleteGlobal g = .ok s' → (t.vars.ufg.map g).isSome → s'.log = t.log := by
      intro t h k
      unfold deleteGlobal at h
      rw [if_pos k] at h
      cases h; rfl
    have hvars : ∀ {t : St α}, t.deleteGlobal g = .ok s' → s'.vars.ufg = t.vars.ufg ∧ s'.vars.gfs = t.vars.gfs := by
      intro t h
      unfold deleteGlobal at h
      repeat' split at h
      all_goals first | (cases h; done) | (cases h; exact ⟨rfl, rfl⟩)
    obtain ⟨h1, h2⟩ := hvars h
    refine ⟨h1, fun w k q => ?_, fun q => ?_⟩
    · rw [h2] at q
      have q : put s.vars.gfs.map v none w = some k := q
      unfold put at q
      split at q
      · cases q
      · exact q
    · exact ⟨[.solverVarName g none], hlog h (q v g hg), fun x hx => by rw [List.mem_singleton.1 hx]; trivial⟩

theorem propagate_keeps {s s' : St α} {o : Option Conflict} (h : s.propagate = .ok (s', o)) : Keeps s s' := by
  unfold propagate at h
  split at h
  · cases h
  · obtain ⟨r, h1, h⟩ := bind_inv h
    cases h
    exact Keeps.same rfl rfl rfl

theorem proveUnits_keeps {s s' : St α} {b : Bool} (h : s.proveUnits = .ok (s', b)) : Keeps s s' := by
  unfold proveUnits at h
  split at h
  · simp only at h
    split at h
    · cases h
    · split at h
      · cases h; exact Keeps.same rfl rfl rfl
      · obtain ⟨t, h1, h⟩ := bind_inv h
        cases h
        exact Keeps.pre (emit_keeps h1) rfl rfl rfl
  · cases h; exact Keeps.refl _

theorem simplifyBinary_keeps {s s' : St α} (h : s.simplifyBinary = .ok s') : Keeps s s' := by
  unfold simplifyBinary at h
  obtain ⟨t, h1, h⟩ := bind_inv h
  cases h
  refine (emitAll_keeps h1 fun x hx => ?_).trans (.same rfl rfl rfl)
  obtain ⟨l, _, hx⟩ := List.mem_flatMap.1 hx
  obtain ⟨y, _, rfl⟩ := List.mem_map.1 hx
  trivial

theorem simplifyClause_keeps {s s' : St α} {c : Nat} {b : Bool} (h : s.simplifyClause c = .ok (s', b)) : Keeps s s' := by
  unfold simplifyClause at h
  simp only at h
  split at h
  · obtain ⟨t, h1, h⟩ := bind_inv h
    cases h
    exact emit_keeps h1
  · split at h
    · obtain ⟨t, h1, h⟩ := bind_inv h
      obtain ⟨t2, h2, h⟩ := bind_inv h
      have k := (emit_keeps h1).trans (emit_keeps h2)
      split at h
      · cases h
      · cases h
      · cases h; exact k.trans (.same rfl rfl rfl)
      · cases h; exact k.trans (.same rfl rfl rfl)
    · cases h; exact Keeps.refl _

theorem filterLoop_keeps : ∀ {cs : List Nat} {s s' : St α} {r : List Nat}, filterLoop cs s = .ok (s', r) → Keeps s s'
  | [], _, _, _, h => by cases h; exact Keeps.refl _
  | c :: cs, s, s', r, h => by
    rw [filterLoop] at h
    split at h
    · exact filterLoop_keeps h
    · obtain ⟨⟨t, b⟩, h1, h⟩ := bind_inv h
      have k := simplifyClause_keeps h1
      split at h
      · obtain ⟨⟨t2, q⟩, h2, h⟩ := bind_inv h
        cases h
        exact k.trans (filterLoop_keeps h2)
      · exact k.trans (Keeps.pre (filterLoop_keeps h) rfl rfl rfl)

theorem removeLoop_keeps : ∀ {vs : List Nat} {s s' : St α}, removeLoop vs s = .ok s' → Keeps s s'
  | [], _, _, h => by cases h; exact Keeps.refl _
  | v :: vs, s, s', h => by
    rw [removeLoop] at h
    split at h
    · exact removeLoop_keeps h
    · obtain ⟨t, h1, h⟩ := bind_inv h
      have k : Keeps s t := updSolverData_keeps h1
      split at h
      · cases h
      · split at h
        · obtain ⟨t2, h2, h⟩ := bind_inv h
          exact k.trans ((removeSolverVar_keeps h2).trans (removeLoop_keeps h))
        · exact k.trans (removeLoop_keeps h)

theorem unitSimplify_keeps {s s' : St α} (h : s.unitSimplify = .ok s') : Keeps s s' := by
  unfold unitSimplify at h
  obtain ⟨t, h1, h⟩ := bind_inv h
  obtain ⟨⟨t2, r⟩, h2, h⟩ := bind_inv h
  exact (simplifyBinary_keeps h1).trans (Keeps.pre ((filterLoop_keeps h2).trans
    (Keeps.pre (removeLoop_keeps h) rfl rfl rfl)) rfl rfl rfl)

theorem reduceLocals_keeps {s s' : St α} (h : s.reduceLocals = .ok s') : Keeps s s' := by
  unfold reduceLocals at h
  split at h
  · cases h
  · exact Keeps.pre (emitAll_keeps h (by
      intro x hx
      obtain ⟨y, _, rfl⟩ := List.mem_map.1 hx
      trivial)) rfl rfl rfl

theorem restartStep_keeps (s : St α) (e : Env α) : Keeps s (s.restartStep e) := by
  unfold restartStep
  split <;> exact Keeps.same rfl rfl rfl

theorem midsStep_keeps (s : St α) (e : Env α) : Keeps s (s.midsStep e) := by
  unfold midsStep
  split <;> exact Keeps.same rfl rfl rfl

theorem makeDecision_keeps (s : St α) : Keeps s s.makeDecision.1 := by
  unfold makeDecision
  simp only
  split <;> exact Keeps.same rfl rfl rfl

theorem analyzeAssumption_keeps {s s' : St α} {l : Lit} (h : s.analyzeAssumption l = .ok s') : Keeps s s' := by
  unfold analyzeAssumption at h
  simp only at h
  split at h
  · cases h
  · exact Keeps.pre (emit_keeps h) rfl rfl rfl

theorem enqLoop_keeps : ∀ {n : Nat} {s s' : St α} {o : Enq}, enqLoop n s = .ok (s', o) → Keeps s s'
  | 0, _, _, _, h => by cases h
  | n + 1, s, s', o, h => by
    rw [enqLoop] at h
    simp only at h
    split at h
    · cases h; exact Keeps.same rfl rfl rfl
    · split at h
      · obtain ⟨t, h1, h⟩ := bind_inv h
        cases h
        exact Keeps.pre (analyzeAssumption_keeps h1) rfl rfl rfl
      · exact Keeps.pre (enqLoop_keeps h) rfl rfl rfl
      · cases h; exact Keeps.same rfl rfl rfl

theorem findLoop_keeps : ∀ {n : Nat} {s s' : St α} {o : Found}, findLoop n s = .ok (s', o) → Keeps s s'
  | 0, _, _, _, h => by cases h
  | n + 1, s, s', o, h => by
    rw [findLoop] at h
    obtain ⟨⟨t, c⟩, h1, h⟩ := bind_inv h
    obtain ⟨⟨t2, b⟩, h2, h⟩ := bind_inv h
    have k : Keeps s t2 := (propagate_keeps h1).trans (proveUnits_keeps h2)
    cases c with
    | some c => cases h; exact k
    | none =>
      have go : ∀ {t3 : St α}, Keeps s t3 → (t3.enqueueAssumption >>= fun q => match q.2 with
          | .enqueued => findLoop n q.1
          | .conflict => pure (q.1, .assumption)
          | .done => if q.1.makeDecision.2 then findLoop n q.1.makeDecision.1 else pure (q.1.makeDecision.1, .none)) = .ok (s', o) →
          Keeps s s' := by
        intro t3 k h
        obtain ⟨⟨t4, q⟩, h4, h⟩ := bind_inv h
        have k4 : Keeps t3 t4 := enqLoop_keeps h4
        cases q with
        | enqueued => exact (k.trans k4).trans (findLoop_keeps h)
        | conflict => cases h; exact k.trans k4
        | done =>
          simp only at h
          have k := (k.trans k4).trans (makeDecision_keeps t4)
          split at h
          · exact k.trans (findLoop_keeps h)
          · cases h; exact k
      cases b with
      | true =>
        obtain ⟨t3, h3, h⟩ := bind_inv (show (t2.unitSimplify >>= _) = _ from h)
        exact go (k.trans (unitSimplify_keeps h3)) h
      | false => exact go k h

theorem addLearned_keeps {e : Env α} {s s' : St α} {c : List Lit} (h : s.addLearned e c = .ok s') : Keeps s s' := by
  unfold addLearned at h
  split at h
  · cases h; exact Keeps.same rfl rfl rfl
  · cases h; exact Keeps.same rfl rfl rfl
  · cases h; exact Keeps.same rfl rfl rfl
  · simp only at h
    split at h
    · cases h
    · cases h; exact Keeps.same rfl rfl rfl

theorem learn_keeps {e : Env α} {s s' : St α} {c : Conflict} (h : s.learn e c = .ok s') : Keeps s s' := by
  unfold learn at h
  obtain ⟨r, _, h⟩ := bind_inv h
  obtain ⟨t, h1, h⟩ := bind_inv h
  exact Keeps.pre ((emit_keeps h1).trans (addLearned_keeps h)) rfl rfl rfl

theorem conflictStep_keeps {e : Env α} {s s' : St α} (h : s.conflictStep e = .ok s') : Keeps s s' := by
  unfold conflictStep at h
  obtain ⟨⟨t, o⟩, h1, h⟩ := bind_inv h
  have k : Keeps s t := findLoop_keeps h1
  cases o with
  | none =>
    cases h
    exact k.trans (Keeps.one (st := .model _) rfl rfl rfl trivial)
  | assumption => cases h; exact k.trans (.same rfl rfl rfl)
  | conflict c => exact k.trans (learn_keeps h)

theorem searchStep_keeps {e : Env α} {s s' : St α} {b : Bool} (h : s.searchStep e = .ok (s', b)) : Keeps s s' := by
  unfold searchStep at h
  split at h
  · cases h
  · obtain ⟨t, h1, h⟩ := bind_inv h
    cases h
    exact Keeps.trans (Keeps.pre (conflictStep_keeps h1) rfl rfl rfl) (.same rfl rfl rfl)

theorem scheduleStep_keeps {e : Env α} {s s' : St α} {b : Bool} (h : s.scheduleStep e = .ok (s', b)) : Keeps s s' := by
  unfold scheduleStep at h
  split at h
  · cases h; exact Keeps.refl _
  simp only at h
  have k1 := restartStep_keeps s e
  split at h
  · obtain ⟨t, h1, h⟩ := bind_inv h
    exact ((k1.trans (reduceLocals_keeps h1)).trans (midsStep_keeps t e)).trans (searchStep_keeps h)
  · exact (k1.trans (midsStep_keeps (s.restartStep e) e)).trans (searchStep_keeps h)

theorem solveLoop_keeps {e : Env α} : ∀ {n : Nat} {s s' : St α}, solveLoop e n s = .ok s' → Keeps s s'
  | 0, _, _, h => by cases h
  | n + 1, s, s', h => by
    rw [solveLoop] at h
    obtain ⟨⟨t, b⟩, h1, h⟩ := bind_inv h
    have k := scheduleStep_keeps h1
    cases b with
    | true => exact k.trans (solveLoop_keeps h)
    | false => cases h; exact k

theorem solve_keeps {e : Env α} {n : Nat} {s s' : St α} {b : Bool} (h : s.solve e n = .ok (s', b)) : Keeps s s' := by
  unfold solve at h
  obtain ⟨t, h1, h⟩ := bind_inv h
  cases h
  exact Keeps.pre (solveLoop_keeps h1) rfl rfl rfl

end St
end Varisat.Solver
