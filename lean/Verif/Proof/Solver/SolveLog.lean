import Verif.Proof.Solver.Grow
/-!
# The proof steps of `solve`
-/
namespace Varisat.Solver

variable {α : Type} [LinearOrder α]

/-- A step that derives or removes something: no input, no answer. -/
def Derives : ProofStep → Prop
  | .atClause _ _ _ | .unitClauses _ | .deleteClause _ _ | .solverVarName _ none | .deleteVar _ => True
  | _ => False

/-- Proof and answer stay the same. -/
def Mute (s s' : St α) : Prop := s'.log = s.log ∧ s'.sat = s.sat

theorem Mute.trans {a b c : St α} (h : Mute a b) (k : Mute b c) : Mute a c := ⟨k.1.trans h.1, k.2.trans h.2⟩

/-- The new steps are of this kind and the answer stays the same. -/
def Logs (s s' : St α) : Prop := (∃ L, s'.log = s.log ++ L ∧ ∀ st ∈ L, Derives st) ∧ s'.sat = s.sat

theorem Logs.same {s s' : St α} (h : Mute s s') : Logs s s' := ⟨⟨[], by simpa using h.1, fun _ h => by cases h⟩, h.2⟩
theorem Logs.refl (s : St α) : Logs s s := .same ⟨rfl, rfl⟩
theorem Logs.trans {a b c : St α} (h : Logs a b) (k : Logs b c) : Logs a c := by
  obtain ⟨⟨L, h1, h2⟩, h3⟩ := h
  obtain ⟨⟨M, k1, k2⟩, k3⟩ := k
  refine ⟨⟨L ++ M, by rw [k1, h1, List.append_assoc], fun st hst => ?_⟩, k3.trans h3⟩
  rcases List.mem_append.1 hst with q | q
  · exact h2 st q
  · exact k2 st q
theorem Logs.pre {a b c : St α} (k : Logs b c) (h : Mute a b) : Logs a c := (Logs.same h).trans k
theorem Logs.post {a b c : St α} (k : Logs a b) (h : Mute b c) : Logs a c := k.trans (Logs.same h)
theorem Logs.one {s s' : St α} {st : ProofStep} (h : s'.log = s.log ++ [st]) (k : s'.sat = s.sat) (hs : Derives st) : Logs s s' :=
  ⟨⟨[st], h, fun x q => by rw [List.mem_singleton.1 q]; exact hs⟩, k⟩

namespace St

theorem emitG_logs (s : St α) (x : ProofStep) (hx : Derives x) : Logs s (s.emitG x) :=
  Logs.one rfl rfl hx

theorem emit_one {s s' : St α} {x : ProofStep} (h : s.emit x = .ok s') : ∃ y, mapStep? s.vars.gfs.map x = some y ∧ s'.log = s.log ++ [y] ∧ s'.sat = s.sat := by
  unfold emit at h
  split at h
  · rename_i y hy
    cases h
    exact ⟨y, hy, rfl, rfl⟩
  · cases h

theorem derives_map {f : Nat → Option Nat} {x y : ProofStep} (h : mapStep? f x = some y) (hx : Derives x) : Derives y := by
  cases x <;> simp only [mapStep?, Option.map_eq_some_iff] at h
  all_goals first
    | (injection h with h; subst h; exact hx)
    | (obtain ⟨z, _, rfl⟩ := h; first | trivial | exact hx)

theorem emit_logs {s s' : St α} {x : ProofStep} (h : s.emit x = .ok s') (hx : Derives x := by trivial) : Logs s s' := by
  obtain ⟨y, h1, h2, h3⟩ := emit_one h
  exact Logs.one h2 h3 (derives_map h1 hx)

theorem emitAll_logs : ∀ {xs : List ProofStep} {s s' : St α}, emitAll xs s = .ok s' → (∀ x ∈ xs, Derives x) → Logs s s'
  | [], _, _, h, _ => by cases h; exact Logs.refl _
  | x :: xs, s, s', h, hx => by
    rw [emitAll] at h
    obtain ⟨t, h1, h⟩ := bind_inv h
    exact (emit_logs h1 (hx x (by simp))).trans (emitAll_logs h fun y hy => hx y (by simp [hy]))

theorem updSolverData_log {s s' : St α} {v : Nat} {f : VarData → VarData} (h : s.updSolverData v f = .ok s') : Mute s s' := by
  unfold updSolverData at h
  split at h
  · cases h
  · split at h
    · cases h; exact ⟨rfl, rfl⟩
    · cases h

theorem deleteGlobal_logs {s s' : St α} {g : Nat} (h : s.deleteGlobal g = .ok s') : Logs s s' := by
  unfold deleteGlobal at h
  repeat' split at h
  all_goals first | (cases h; done) | (cases h; first | exact Logs.refl _ | exact Logs.one rfl rfl trivial)

theorem removeSolverVar_logs {s s' : St α} {v : Nat} (h : s.removeSolverVar v = .ok s') : Logs s s' := by
  unfold removeSolverVar at h
  split at h
  · cases h
  · simp only at h
    refine Logs.trans ?_ (deleteGlobal_logs h)
    exact Logs.one rfl rfl trivial

theorem propagate_log {s s' : St α} {o : Option Conflict} (h : s.propagate = .ok (s', o)) : Mute s s' := by
  unfold propagate at h
  split at h
  · cases h
  · obtain ⟨r, h1, h⟩ := bind_inv h
    cases h
    exact ⟨rfl, rfl⟩

theorem proveUnits_logs {s s' : St α} {b : Bool} (h : s.proveUnits = .ok (s', b)) : Logs s s' := by
  unfold proveUnits at h
  split at h
  · simp only at h
    split at h
    · cases h
    · split at h
      · cases h; exact Logs.same ⟨rfl, rfl⟩
      · obtain ⟨t, h1, h⟩ := bind_inv h
        cases h
        exact (emit_logs h1).pre ⟨rfl, rfl⟩
  · cases h; exact Logs.refl _

theorem simplifyBinary_logs {s s' : St α} (h : s.simplifyBinary = .ok s') : Logs s s' := by
  unfold simplifyBinary at h
  obtain ⟨t, h1, h⟩ := bind_inv h
  cases h
  refine (emitAll_logs h1 fun x hx => ?_).post ⟨rfl, rfl⟩
  obtain ⟨l, _, hx⟩ := List.mem_flatMap.1 hx
  obtain ⟨y, _, rfl⟩ := List.mem_map.1 hx
  trivial

theorem simplifyClause_logs {s s' : St α} {c : Nat} {b : Bool} (h : s.simplifyClause c = .ok (s', b)) : Logs s s' := by
  unfold simplifyClause at h
  simp only at h
  split at h
  · obtain ⟨t, h1, h⟩ := bind_inv h
    cases h
    exact emit_logs h1
  · split at h
    · obtain ⟨t, h1, h⟩ := bind_inv h
      obtain ⟨t2, h2, h⟩ := bind_inv h
      have k := (emit_logs h1).trans (emit_logs h2)
      split at h
      · cases h
      · cases h
      · cases h; exact k.post ⟨rfl, rfl⟩
      · cases h; exact k.post ⟨rfl, rfl⟩
    · cases h; exact Logs.refl _

theorem filterLoop_logs : ∀ {cs : List Nat} {s s' : St α} {r : List Nat}, filterLoop cs s = .ok (s', r) → Logs s s'
  | [], _, _, _, h => by cases h; exact Logs.refl _
  | c :: cs, s, s', r, h => by
    rw [filterLoop] at h
    split at h
    · exact filterLoop_logs h
    · obtain ⟨⟨t, b⟩, h1, h⟩ := bind_inv h
      have k := simplifyClause_logs h1
      split at h
      · obtain ⟨⟨t2, q⟩, h2, h⟩ := bind_inv h
        cases h
        exact k.trans (filterLoop_logs h2)
      · exact k.trans ((filterLoop_logs h).pre ⟨rfl, rfl⟩)

theorem removeLoop_logs : ∀ {vs : List Nat} {s s' : St α}, removeLoop vs s = .ok s' → Logs s s'
  | [], _, _, h => by cases h; exact Logs.refl _
  | v :: vs, s, s', h => by
    rw [removeLoop] at h
    split at h
    · exact removeLoop_logs h
    · obtain ⟨t, h1, h⟩ := bind_inv h
      have k : Logs s t := Logs.same (updSolverData_log h1)
      split at h
      · cases h
      · split at h
        · obtain ⟨t2, h2, h⟩ := bind_inv h
          exact k.trans ((removeSolverVar_logs h2).trans (removeLoop_logs h))
        · exact k.trans (removeLoop_logs h)

theorem unitSimplify_logs {s s' : St α} (h : s.unitSimplify = .ok s') : Logs s s' := by
  unfold unitSimplify at h
  obtain ⟨t, h1, h⟩ := bind_inv h
  obtain ⟨⟨t2, r⟩, h2, h⟩ := bind_inv h
  exact (simplifyBinary_logs h1).trans (((filterLoop_logs h2).trans ((removeLoop_logs h).pre ⟨rfl, rfl⟩)).pre ⟨rfl, rfl⟩)

theorem reduceLocals_logs {s s' : St α} (h : s.reduceLocals = .ok s') : Logs s s' := by
  unfold reduceLocals at h
  split at h
  · cases h
  · exact (emitAll_logs h (by
      intro x hx
      obtain ⟨y, _, rfl⟩ := List.mem_map.1 hx
      trivial)).pre ⟨rfl, rfl⟩

theorem restartStep_log (s : St α) (e : Env α) : Mute s (s.restartStep e) := by
  unfold restartStep
  split <;> exact ⟨rfl, rfl⟩

theorem midsStep_log (s : St α) (e : Env α) : Mute s (s.midsStep e) := by
  unfold midsStep
  split <;> exact ⟨rfl, rfl⟩

theorem makeDecision_log (s : St α) : Mute s s.makeDecision.1 := by
  unfold makeDecision
  simp only
  split <;> exact ⟨rfl, rfl⟩

/-- Derivations, then the step that goes with the answer. -/
def LogsThen (s s' : St α) (P : ProofStep → Prop) : Prop := (∃ L y, s'.log = s.log ++ L ++ [y] ∧ (∀ st ∈ L, Derives st) ∧ P y) ∧ s'.sat = s.sat

theorem LogsThen.pre {a b c : St α} {P : ProofStep → Prop} (h : Logs a b) (k : LogsThen b c P) : LogsThen a c P := by
  obtain ⟨⟨L, h1, h2⟩, h3⟩ := h
  obtain ⟨⟨M, y, k1, k2, k3⟩, k4⟩ := k
  refine ⟨⟨L ++ M, y, by rw [k1, h1]; simp, fun st hst => ?_, k3⟩, k4.trans h3⟩
  rcases List.mem_append.1 hst with q | q
  · exact h2 st q
  · exact k2 st q

def IsFail (st : ProofStep) : Prop := ∃ c hs, st = .failedAssumptions c hs
def IsModel (st : ProofStep) : Prop := ∃ a, st = .model a

theorem analyzeAssumption_logs {s s' : St α} {l : Lit} (h : s.analyzeAssumption l = .ok s') : LogsThen s s' IsFail := by
  unfold analyzeAssumption at h
  simp only at h
  split at h
  · cases h
  · obtain ⟨y, h1, h2, h3⟩ := emit_one h
    simp only [mapStep?, Option.map_eq_some_iff] at h1
    obtain ⟨z, _, rfl⟩ := h1
    exact ⟨⟨[], _, by simpa using h2, (fun _ h => by cases h), _, _, rfl⟩, h3⟩

/-- What an outcome of `enqueue_assumption` says. -/
def EnqLog (s s' : St α) (o : Enq) : Prop := match o with
  | .conflict => LogsThen s s' IsFail
  | _ => Mute s s'

theorem enqLoop_logs : ∀ {n : Nat} {s s' : St α} {o : Enq}, enqLoop n s = .ok (s', o) → EnqLog s s' o
  | 0, _, _, _, h => by cases h
  | n + 1, s, s', o, h => by
    rw [enqLoop] at h
    simp only at h
    split at h
    · cases h; exact ⟨rfl, rfl⟩
    · split at h
      · obtain ⟨t, h1, h⟩ := bind_inv h
        cases h
        exact analyzeAssumption_logs h1
      · have := enqLoop_logs h
        cases o <;> exact this
      · cases h; exact ⟨rfl, rfl⟩

/-- What an outcome of `find_conflict` says. -/
def FoundLog (s s' : St α) (o : Found) : Prop := match o with
  | .assumption => LogsThen s s' IsFail
  | _ => Logs s s'

theorem FoundLog.pre {a b c : St α} {o : Found} (h : Logs a b) (k : FoundLog b c o) : FoundLog a c o := by
  cases o with
  | assumption => exact LogsThen.pre h k
  | none => exact Logs.trans h k
  | conflict x => exact Logs.trans h k

theorem findLoop_logs : ∀ {n : Nat} {s s' : St α} {o : Found}, findLoop n s = .ok (s', o) → FoundLog s s' o
  | 0, _, _, _, h => by cases h
  | n + 1, s, s', o, h => by
    rw [findLoop] at h
    obtain ⟨⟨t, c⟩, h1, h⟩ := bind_inv h
    obtain ⟨⟨t2, b⟩, h2, h⟩ := bind_inv h
    have k : Logs s t2 := (proveUnits_logs h2).pre (propagate_log h1)
    cases c with
    | some c => cases h; exact k
    | none =>
      have go : ∀ {t3 : St α}, Logs s t3 → (t3.enqueueAssumption >>= fun q => match q.2 with
          | .enqueued => findLoop n q.1
          | .conflict => pure (q.1, .assumption)
          | .done => if q.1.makeDecision.2 then findLoop n q.1.makeDecision.1 else pure (q.1.makeDecision.1, .none)) = .ok (s', o) →
          FoundLog s s' o := by
        intro t3 k h
        obtain ⟨⟨t4, q⟩, h4, h⟩ := bind_inv h
        have k4 : EnqLog t3 t4 q := enqLoop_logs h4
        cases q with
        | enqueued => exact FoundLog.pre (k.post k4) (findLoop_logs h)
        | conflict => cases h; exact LogsThen.pre k k4
        | done =>
          simp only at h
          have k := k.post (Mute.trans k4 (makeDecision_log t4))
          split at h
          · exact FoundLog.pre k (findLoop_logs h)
          · cases h; exact k
      cases b with
      | true =>
        obtain ⟨t3, h3, h⟩ := bind_inv (show (t2.unitSimplify >>= _) = _ from h)
        exact go (k.trans (unitSimplify_logs h3)) h
      | false => exact go k h

theorem addLearned_log {e : Env α} {s s' : St α} {c : List Lit} (h : s.addLearned e c = .ok s') :
    s'.log = s.log ∧ (s'.sat = s.sat ∨ s'.sat = .unsat) := by
  unfold addLearned at h
  split at h
  · cases h; exact ⟨rfl, .inr rfl⟩
  · cases h; exact ⟨rfl, .inl rfl⟩
  · cases h; exact ⟨rfl, .inl rfl⟩
  · simp only at h
    split at h
    · cases h
    · cases h; exact ⟨rfl, .inl rfl⟩

/-- The steps of a search, by its answer. -/
def Answer (s s' : St α) : Prop := match s'.sat with
  | .sat => ∃ L y, s'.log = s.log ++ L ++ [y] ∧ (∀ st ∈ L, Derives st) ∧ IsModel y
  | .unsatUnder => ∃ L y, s'.log = s.log ++ L ++ [y] ∧ (∀ st ∈ L, Derives st) ∧ IsFail y
  | _ => ∃ L, s'.log = s.log ++ L ∧ ∀ st ∈ L, Derives st

theorem Answer.pre {a b c : St α} (h : Logs a b) (k : Answer b c) : Answer a c := by
  obtain ⟨⟨L, h1, h2⟩, h3⟩ := h
  have mem : ∀ {M : List ProofStep}, (∀ st ∈ M, Derives st) → ∀ st ∈ L ++ M, Derives st := by
    intro M hM st hst
    rcases List.mem_append.1 hst with q | q
    · exact h2 st q
    · exact hM st q
  unfold Answer at k ⊢
  cases hs : c.sat <;> rw [hs] at k <;> simp only at k ⊢
  · obtain ⟨M, k1, k2⟩ := k
    exact ⟨L ++ M, by rw [k1, h1]; simp, mem k2⟩
  · obtain ⟨M, y, k1, k2, k3⟩ := k
    exact ⟨L ++ M, y, by rw [k1, h1]; simp, mem k2, k3⟩
  · obtain ⟨M, k1, k2⟩ := k
    exact ⟨L ++ M, by rw [k1, h1]; simp, mem k2⟩
  · obtain ⟨M, y, k1, k2, k3⟩ := k
    exact ⟨L ++ M, y, by rw [k1, h1]; simp, mem k2, k3⟩

theorem Answer.congr {a b c : St α} (h : Answer a b) (k : Mute b c) : Answer a c := by
  unfold Answer at h ⊢
  rw [k.1, k.2]
  exact h

theorem learn_logs {e : Env α} {s s' : St α} {c : Conflict} (h : s.learn e c = .ok s') (hu : s.sat = .unknown) : Answer s s' := by
  unfold learn at h
  obtain ⟨r, _, h⟩ := bind_inv h
  obtain ⟨t, h1, h⟩ := bind_inv h
  have k : Logs s t := (emit_logs h1).pre ⟨rfl, rfl⟩
  obtain ⟨k1, k2⟩ := addLearned_log h
  unfold Answer
  rw [k1]
  rcases k2 with k2 | k2 <;> rw [k2]
  · rw [k.2, hu]; exact k.1
  · exact k.1

theorem conflictStep_logs {e : Env α} {s s' : St α} (h : s.conflictStep e = .ok s') (hu : s.sat = .unknown) : Answer s s' := by
  unfold conflictStep at h
  obtain ⟨⟨t, o⟩, h1, h⟩ := bind_inv h
  have k : FoundLog s t o := findLoop_logs h1
  cases o with
  | none =>
    cases h
    obtain ⟨⟨L, k1, k2⟩, _⟩ := k
    exact ⟨L, .model _, by
      show t.log ++ _ = _
      rw [k1], k2, _, rfl⟩
  | assumption => cases h; exact k.1
  | conflict c => exact Answer.pre k (learn_logs h (k.2.trans hu))

theorem searchStep_logs {e : Env α} {s s' : St α} {b : Bool} (h : s.searchStep e = .ok (s', b)) (hu : s.sat = .unknown) : Answer s s' := by
  unfold searchStep at h
  split at h
  · cases h
  · obtain ⟨t, h1, h⟩ := bind_inv h
    cases h
    have k := conflictStep_logs h1 hu
    have k : Answer s t := Answer.pre (b := { s with db := _, p := _, w := _ }) (Logs.same ⟨rfl, rfl⟩) k
    exact k.congr ⟨rfl, rfl⟩

theorem scheduleStep_logs {e : Env α} {s s' : St α} {b : Bool} (h : s.scheduleStep e = .ok (s', b)) (hu : s.sat = .unknown) :
    Answer s s' := by
  unfold scheduleStep at h
  rw [if_neg (by rw [hu]; simp)] at h
  simp only at h
  have k1 := restartStep_log s e
  split at h
  · obtain ⟨t, h1, h⟩ := bind_inv h
    have k2 := (reduceLocals_logs h1).pre k1
    have k3 := k2.post (midsStep_log t e)
    exact Answer.pre k3 (searchStep_logs h (k3.2.trans hu))
  · have k3 := k1.trans (midsStep_log (s.restartStep e) e)
    exact Answer.pre (Logs.same k3) (searchStep_logs h (k3.2.trans hu))

/-- The whole loop. -/
theorem solveLoop_logs {e : Env α} : ∀ {n : Nat} {s s' : St α}, solveLoop e n s = .ok s' →
    (s.sat ≠ .unknown → s' = s) ∧ (s.sat = .unknown → Answer s s') ∧ s'.sat ≠ .unknown
  | 0, _, _, h => by cases h
  | n + 1, s, s', h => by
    rw [solveLoop] at h
    obtain ⟨⟨t, b⟩, h1, h⟩ := bind_inv h
    by_cases hu : s.sat = .unknown
    · have k := scheduleStep_logs h1 hu
      have hb : b = true := by
        unfold scheduleStep at h1
        rw [if_neg (by rw [hu]; simp)] at h1
        have go : ∀ {u t : St α} {b : Bool}, u.searchStep e = .ok (t, b) → b = true := by
          intro u t b h
          unfold searchStep at h
          split at h
          · cases h
          · obtain ⟨_, _, h⟩ := bind_inv h
            cases h; rfl
        simp only at h1
        split at h1
        · obtain ⟨_, _, h1⟩ := bind_inv h1
          exact go h1
        · exact go h1
      subst hb
      have h : solveLoop e n t = .ok s' := h
      obtain ⟨i1, i2, i3⟩ := solveLoop_logs h
      refine ⟨fun q => absurd hu q, fun _ => ?_, i3⟩
      by_cases ht : t.sat = .unknown
      · refine Answer.pre ⟨?_, ht.trans hu.symm⟩ (i2 ht)
        unfold Answer at k
        rw [ht] at k
        exact k
      · rw [i1 ht]; exact k
    · have h1 : (Except.ok (s, false) : Except Stop (St α × Bool)) = .ok (t, b) := by
        rw [← h1]; unfold scheduleStep; rw [if_pos hu]
      cases h1
      cases h
      exact ⟨fun _ => rfl, fun q => absurd q hu, hu⟩

theorem solve_logs {e : Env α} {n : Nat} {s s' : St α} {b : Bool} (h : s.solve e n = .ok (s', b)) :
    (s.sat ≠ .unknown → s'.log = s.log ∧ s'.sat = s.sat) ∧ (s.sat = .unknown → Answer s s') ∧ b = decide (s'.sat = .sat) := by
  unfold solve at h
  obtain ⟨t, h1, h⟩ := bind_inv h
  cases h
  obtain ⟨i1, i2, _⟩ := solveLoop_logs h1
  refine ⟨fun q => by rw [i1 q]; exact ⟨rfl, rfl⟩, fun q => ?_, rfl⟩
  exact Answer.pre (Logs.same ⟨rfl, rfl⟩) (i2 q)

end St
end Varisat.Solver
