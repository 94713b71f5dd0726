import Verif.Proof.Solver.Weight
import Verif.Proof.Solver.Mark
/-!
# `solve` ends
-/
namespace Varisat.Solver

variable {α : Type} [LinearOrder α]
variable {F : List (List Lit)} {A : List Lit} {ids : Nat → Nat} {k : Nat}

namespace St

/-! ### Steps that keep the trail -/

theorem emit_p {s s' : St α} {x : ProofStep} (h : s.emit x = .ok s') : s'.p = s.p := by
  unfold emit at h
  split at h
  · cases h; rfl
  · cases h

theorem emitAll_p : ∀ {xs : List ProofStep} {s s' : St α}, emitAll xs s = .ok s' → s'.p = s.p
  | [], _, _, h => by cases h; rfl
  | x :: xs, s, s', h => by
    rw [emitAll] at h
    obtain ⟨t, h1, h⟩ := bind_inv h
    exact (emitAll_p h).trans (emit_p h1)

theorem simplifyBinary_p {s s' : St α} (h : s.simplifyBinary = .ok s') : s'.p = s.p := by
  unfold simplifyBinary at h
  obtain ⟨t, h1, h⟩ := bind_inv h
  cases h
  have k := emitAll_p h1
  exact k

theorem simplifyClause_p {s s' : St α} {c : Nat} {b : Bool} (h : s.simplifyClause c = .ok (s', b)) : s'.p = s.p := by
  unfold simplifyClause at h
  simp only at h
  split at h
  · obtain ⟨t, h1, h⟩ := bind_inv h
    cases h
    exact emit_p h1
  · split at h
    · obtain ⟨t, h1, h⟩ := bind_inv h
      obtain ⟨t2, h2, h⟩ := bind_inv h
      have k := (emit_p h2).trans (emit_p h1)
      split at h
      · cases h
      · cases h
      · cases h; exact k
      · cases h; exact k
    · cases h; rfl

theorem filterLoop_p : ∀ {cs : List Nat} {s s' : St α} {r : List Nat}, filterLoop cs s = .ok (s', r) → s'.p = s.p
  | [], _, _, _, h => by cases h; rfl
  | c :: cs, s, s', r, h => by
    rw [filterLoop] at h
    split at h
    · exact filterLoop_p h
    · obtain ⟨⟨t, b⟩, h1, h⟩ := bind_inv h
      have k := simplifyClause_p h1
      split at h
      · obtain ⟨⟨t2, q⟩, h2, h⟩ := bind_inv h
        cases h
        exact (filterLoop_p h2).trans k
      · exact (filterLoop_p h).trans k

theorem updSolverData_p {s s' : St α} {v : Nat} {f : VarData → VarData} (h : s.updSolverData v f = .ok s') : s'.p = s.p := by
  unfold updSolverData at h
  repeat' split at h
  all_goals first | (cases h; done) | (cases h; rfl)

theorem deleteGlobal_p {s s' : St α} {g : Nat} (h : s.deleteGlobal g = .ok s') : s'.p = s.p := by
  unfold deleteGlobal at h
  repeat' split at h
  all_goals first | (cases h; done) | (cases h; rfl)

theorem removeSolverVar_p {s s' : St α} {v : Nat} (h : s.removeSolverVar v = .ok s') : s'.p = s.p := by
  unfold removeSolverVar at h
  split at h
  · cases h
  · have k := deleteGlobal_p h
    exact k

theorem removeLoop_p : ∀ {vs : List Nat} {s s' : St α}, removeLoop vs s = .ok s' → s'.p = s.p
  | [], _, _, h => by cases h; rfl
  | v :: vs, s, s', h => by
    rw [removeLoop] at h
    split at h
    · exact removeLoop_p h
    · obtain ⟨t, h1, h⟩ := bind_inv h
      have k := updSolverData_p h1
      split at h
      · cases h
      · split at h
        · obtain ⟨t2, h2, h⟩ := bind_inv h
          exact (removeLoop_p h).trans ((removeSolverVar_p h2).trans k)
        · exact (removeLoop_p h).trans k

theorem unitSimplify_p {s s' : St α} (h : s.unitSimplify = .ok s') : s'.p = s.p := by
  unfold unitSimplify at h
  obtain ⟨t, h1, h⟩ := bind_inv h
  obtain ⟨⟨t2, r⟩, h2, h⟩ := bind_inv h
  have k1 := simplifyBinary_p h1
  have k2 := filterLoop_p h2
  have k3 := removeLoop_p h
  exact k3.trans (k2.trans k1)

theorem reduceLocals_p {s s' : St α} (h : s.reduceLocals = .ok s') : s'.p = s.p := by
  unfold reduceLocals at h
  split at h
  · cases h
  · have k := emitAll_p h
    exact k

theorem midsStep_p (e : Env α) (s : St α) : (s.midsStep e).p = s.p := by
  unfold midsStep; split <;> rfl

theorem analyzeAssumption_p {s s' : St α} {l : Lit} (h : s.analyzeAssumption l = .ok s') : s'.p = s.p := by
  unfold analyzeAssumption at h
  simp only at h
  split at h
  · cases h
  · have k := emit_p h
    exact k

/-! ### Decisions -/

theorem enqLoop_wt : ∀ {n : Nat} {s s' : St α} {o : Enq}, enqLoop n s = .ok (s', o) → s.p.wt k ≤ s'.p.wt k
  | 0, _, _, _, h => by cases h
  | n + 1, s, s', o, h => by
    rw [enqLoop] at h
    simp only at h
    split at h
    · cases h; exact Nat.le_refl _
    · split at h
      · obtain ⟨t, h1, h⟩ := bind_inv h
        cases h
        rw [analyzeAssumption_p h1]
      · have z := enqLoop_wt h
        exact z
      · rename_i hv
        cases h
        refine wt_decide ?_
        unfold Pt.litValue at hv
        simpa using hv

theorem findVar_none {p : Pt} : ∀ {n : Nat} {q q' : Vsids α} {u : Nat}, findVar p n q = (some u, q') → p.value u = none
  | 0, _, _, _, h => by cases h
  | n + 1, q, q', u, h => by
    rw [findVar] at h
    split at h
    · cases h
    · split at h
      · rename_i hx; cases h; exact hx
      · exact findVar_none h

theorem makeDecision_wt (s : St α) : s.p.wt k ≤ s.makeDecision.1.p.wt k := by
  unfold makeDecision
  simp only
  split
  · exact Nat.le_refl _
  · rename_i v hv
    refine wt_decide ?_
    rw [Lit.var_mk']
    exact findVar_none (q' := (findVar s.p (s.vsids.len + 1) s.vsids).2) (by rw [← hv])

end St

theorem SInv.trail_lt {s : St α} (h : SInv F A ids s) : ∀ l ∈ s.p.trail, l.var < s.varCount :=
  fun l hl => h.lt _ (h.core.c.pres l hl)

/-- `find_conflict` does not lower the measure. -/
theorem SInv.findLoop_wt : ∀ (n : Nat) {s s' : St α} {o : St.Found}, SInv F A ids s → Prop2 s.bins.byLit s.db s.p → L0 s.p →
    s.varCount = k → St.findLoop n s = .ok (s', o) → s.p.wt k ≤ s'.p.wt k
  | 0, _, _, _, _, _, _, _, hf => by cases hf
  | n + 1, s, s', o', h, h2, hl0, hk, hf => by
    rw [St.findLoop] at hf
    obtain ⟨s1, o, e1, e2, e3, e4, e5, e6, e7⟩ := h.propagate h2
    rw [e1, ok_bind] at hf
    simp only at hf
    have hdec : s1.p.decisions = s.p.decisions := e3.ext.decisions
    have hw1 : s.p.wt k ≤ s1.p.wt k := e3.wt_le
    have hk1 : s1.varCount = k := by rw [e4]; exact hk
    have key : ∀ u, SInv F A ids u → Prop2 u.bins.byLit u.db u.p → L0 u.p → u.p.qhead = u.p.trail.length →
        u.varCount = k → s.p.wt k ≤ u.p.wt k →
        (u.enqueueAssumption >>= fun q =>
          match q.2 with
          | .enqueued => St.findLoop n q.1
          | .conflict => pure (q.1, St.Found.assumption)
          | .done => if (q.1.makeDecision).2 then St.findLoop n (q.1.makeDecision).1
              else pure ((q.1.makeDecision).1, St.Found.none)) = .ok (s', o') → s.p.wt k ≤ s'.p.wt k := by
      intro u k1 k2 k3 k4 k5 k6 hf
      obtain ⟨t, r, f1, f2, f3, f4, f5, f6⟩ := k1.enqueueAssumption k2 k4 k3
      have hvc : t.varCount = k := f3.frame.count.trans k5
      have hwt : s.p.wt k ≤ t.p.wt k := Nat.le_trans k6 (St.enqLoop_wt f1)
      rw [f1, ok_bind] at hf
      cases r with
      | enqueued => exact Nat.le_trans hwt (SInv.findLoop_wt n f2 f4 f5 hvc hf)
      | conflict => cases hf; exact hwt
      | done =>
        simp only at f6 hf
        have htq : t.p.qhead = t.p.trail.length := by rw [f6.1]; exact k4
        obtain ⟨z, b, g1, g2, g3, g4, g5, g6, g7⟩ := f2.makeDecision f4 htq f5 f6.2
        have hwz : s.p.wt k ≤ z.p.wt k := by
          have := St.makeDecision_wt (k := k) t
          rw [g1] at this
          exact Nat.le_trans hwt this
        rw [g1] at hf
        have hcz : z.vsids.count = t.vsids.count := by
          have h1 := g2.q.count
          have h2 := f2.q.count
          rw [h1, h2]
          rw [g5]
        cases b with
        | true =>
          simp only [if_true] at hf
          exact Nat.le_trans hwz (SInv.findLoop_wt n g2 g3 g4 (hcz.trans hvc) hf)
        | false => cases hf; exact hwz
    by_cases hd : s1.p.decisions = []
    · obtain ⟨q, L, p1, p2, p3, p4, p5, p6, p7⟩ := St.proveUnits_zero e2.core.c.tr hd e2.core.c.pres
      have hwq : q.wt k = s1.p.wt k := wt_clear e2.core.c.tr (by rw [← hk1]; exact e2.trail_lt) hd p3 p4 p5
      cases o with
      | some c =>
        rw [p1] at hf
        cases hf
        exact Nat.le_trans hw1 (Nat.le_of_eq hwq.symm)
      | none =>
        obtain ⟨x1, x2⟩ := e6 rfl
        obtain ⟨u1, b, u2, r1, r2, r3, r4, r5, r6, r7, r8, r9, r10, r11, r12, _, r13⟩ := e2.simplify x1 x2 hd
        have hu1 : u1.p = q := by
          rw [p1] at r1
          have := (Prod.mk.inj (Except.ok.inj r1)).1
          rw [← this]
        rw [r1, ok_bind] at hf
        simp only at hf
        have hu2 : u2.p = q := by
          cases b with
          | true => rw [if_pos rfl] at r2; exact (St.unitSimplify_p r2).trans hu1
          | false =>
            rw [if_neg (by simp)] at r2
            rw [← Except.ok.inj r2]; exact hu1
        have hk2 := key u2 r3 (Prop2.nil r6) (.inl ⟨r5, r6⟩) (by rw [r6, r4]; rfl) (r13.trans hk1)
          (by rw [hu2, hwq]; exact hw1)
        cases b with
        | true =>
          rw [if_pos rfl] at r2 hf
          rw [r2, ok_bind] at hf
          exact hk2 hf
        | false =>
          rw [if_neg (by simp)] at r2 hf
          obtain rfl : u1 = u2 := by injection r2
          exact hk2 hf
    · have hpos : s1.p.curLevel ≠ 0 := by
        unfold Pt.curLevel; simpa using hd
      have hl1 : L0 s1.p := by
        rcases hl0 with h1 | h1
        · exact absurd (hdec.trans h1.1) hd
        · right; rw [hdec]; exact h1
      have p1 : s1.proveUnits = .ok (s1, false) := by unfold St.proveUnits; rw [if_neg hpos]
      rw [p1, ok_bind] at hf
      cases o with
      | some c => cases hf; exact hw1
      | none =>
        obtain ⟨x1, x2⟩ := e6 rfl
        exact key s1 e2 x1 hl1 x2 hk1 hw1 hf

/-- The trail after a learned clause was added. -/
theorem St.addLearned_p {e : Env α} {s s' : St α} {u : Lit} {rest : List Lit} (h : s.addLearned e (u :: rest) = .ok s') :
    ∃ r, s'.p = s.p.enqueue u r := by
  unfold addLearned at h
  simp only at h
  repeat' split at h
  all_goals first
    | (cases h; done)
    | (rename_i he; cases he; done)
    | (rename_i he; cases he; cases h; exact ⟨_, rfl⟩)
    | (rename_i he _ _ _ _ _; cases he; cases h; exact ⟨_, rfl⟩)

/-- A conflict raises the measure. -/
theorem SInv.learn_wt {s s' : St α} (h : SInv F A ids s) (e : Env α) {c : Conflict} (hcur : 0 < s.p.curLevel)
    (hc : CRes s.vars.pres (cls s.bins.byLit s.db) s.p c) (hk : s.varCount = k) (hs : s.learn e c = .ok s') :
    s.p.wt k < s'.p.wt k := by
  obtain ⟨L, e1, r⟩ := analyze_ok (e := e) h.core.c hc hcur h.fl h.q.wf (fuel := s.varCount + 1)
    (Nat.le_succ_of_le (h.core.c.tr.length_le (fun l hl => h.lt _ (h.core.c.pres l hl))))
  obtain ⟨u, rest, l1, ⟨ku, l2, l3⟩, l4, l5, l6, l7, l8⟩ := r.eq
  have hbt : L.backtrackTo < s.p.curLevel := by
    cases rest with
    | nil => rw [l8 rfl]; exact hcur
    | cons y ys => rw [← l7 y rfl]; obtain ⟨_, _, _, hy⟩ := l4 y (by simp); exact hy
  obtain ⟨n, hd⟩ : ∃ n, s.p.decisions[L.backtrackTo]? = some n := by
    rw [← Option.isSome_iff_exists, List.getElem?_eq_getElem hbt]; rfl
  have huv : (s.p.backtrack L.backtrackTo).1.value u.var = none := by
    have := Pt.backtrack_unassigned h.core.c.tr hd l2 (by simp only [Lit.var_neg]; omega)
    simpa using this
  unfold St.learn at hs
  have e1' : analyze e s.p s.db.lits s.vflags s.vsids (s.varCount + 1) c = .ok L := e1
  rw [e1', ok_bind] at hs
  simp only at hs
  obtain ⟨t, h1, h2⟩ := bind_inv hs
  rw [l1] at h2
  obtain ⟨q, h3⟩ := St.addLearned_p h2
  have h4 := St.emit_p h1
  rw [h3, h4]
  exact wt_learn h.core.c.tr (by rw [← hk]; exact h.trail_lt) hd huv

theorem RInv.conflictStep_wt {s s' : St α} (h : RInv F A ids s) (hs : s.sat = .unknown) (e : Env α) (hk : s.varCount = k)
    (hc : s.conflictStep e = .ok s') (hu : s'.sat = .unknown) :
    s'.sched = s.sched ∧ s'.varCount = k ∧ s.p.wt k < s'.p.wt k := by
  obtain ⟨t, o, e1, fr, ok⟩ := h.i.findConflict h.p2 h.l0
  have hwt : s.p.wt k ≤ t.p.wt k := SInv.findLoop_wt _ h.i h.p2 h.l0 hk e1
  unfold St.conflictStep at hc
  rw [e1, ok_bind] at hc
  simp only at hc
  have htk : t.varCount = k := fr.count.trans hk
  cases o with
  | none => cases hc; cases hu
  | assumption => cases hc; cases hu
  | conflict c =>
    simp only at hc
    rcases ok with ⟨o1, o2, o3⟩ | ⟨o1, o2, o3, o4⟩
    · unfold St.learn at hc
      have han : analyze e t.p t.db.lits t.vflags t.vsids (t.varCount + 1) c =
          .ok { clause := [], backtrackTo := 0, involved := [], hashes := [clauseHash (c.lits t.db.lits)], flags := t.vflags, vsids := t.vsids } := by
        unfold analyze
        simp only
        rw [if_pos (by unfold Pt.curLevel; rw [o1]; rfl)]
      rw [han, ok_bind] at hc
      obtain ⟨z, _, h2⟩ := bind_inv hc
      cases h2
      cases hu
    · obtain ⟨z, e2, e3, e4, e5, e6⟩ := o2.learn o3 e o1 o4
      have hz : z = s' := by rw [hc] at e2; injection e2 with e2; exact e2.symm
      subst hz
      have hl := o2.learn_wt e o1 o4 htk e2
      exact ⟨e6.sched.trans fr.sched, e6.count.trans htk, Nat.lt_of_le_of_lt hwt hl⟩

/-- One step of the search. -/
theorem After.scheduleStep_wt {s s' : St α} {b : Bool} (h : After F A ids s) (e : Env α) (hk : s.varCount = k) (hs : s.sat = .unknown)
    (hc : s.scheduleStep e = .ok (s', b)) (hu : s'.sat = .unknown) :
    s'.sched = { (s.restartStep e).sched with conflicts := s.sched.conflicts + 1 } ∧ s'.varCount = k ∧
      (s.restartStep e).p.wt k < s'.p.wt k := by
  unfold St.scheduleStep at hc
  rw [if_neg (by rw [hs]; simp)] at hc
  obtain ⟨k1, k2⟩ := h.run (by rw [hs]; simp)
  have r0 : RInv F A ids s := ⟨k1, k2, h.w.l0⟩
  have r1 : RInv F A ids (s.restartStep e) ∧ (s.restartStep e).sat = .unknown ∧ (s.restartStep e).varCount = k ∧
      (s.restartStep e).sched.conflicts = s.sched.conflicts := by
    unfold St.restartStep
    by_cases hr : s.sched.nextRestart = s.sched.conflicts
    · rw [if_pos hr]
      obtain ⟨a, b, c⟩ := k1.backtrack' k2 h.w.l0 s.asm.levels
      exact ⟨⟨⟨a.v, a.q, a.fl, a.asm, a.core, a.dec, a.as⟩, b, c⟩, hs, (a.q.count.trans k1.q.count.symm).trans hk, rfl⟩
    · rw [if_neg hr]; exact ⟨r0, hs, hk, rfl⟩
  obtain ⟨t1, t2, t3, t4⟩ := r1
  generalize s.restartStep e = t at *
  have r3 : ∀ u : St α, RInv F A ids u → u.sat = .unknown → u.varCount = k → u.p = t.p → u.sched = t.sched →
      u.searchStep e = .ok (s', b) →
      s'.sched = { t.sched with conflicts := s.sched.conflicts + 1 } ∧ s'.varCount = k ∧ t.p.wt k < s'.p.wt k := by
    intro u u1 u2 u3 u4 u5 hc
    have hnode : ∀ db p w, u.db.collect u.p u.w = some (db, p, w) → p.wt k = u.p.wt k := by
      intro db p w he
      unfold Db.collect at he
      split at he
      · obtain ⟨db', p', g, e1, r⟩ := Db.collectNow_ok u1.i.core.dbi u1.i.core.c.tr u.w u1.i.core.c.len (by
          intro l hl c hr
          obtain ⟨k, hk⟩ := List.getElem?_of_mem hl
          have := u1.i.core.c.rs k l hk
          unfold ReasonAt at this
          rw [hr] at this
          obtain ⟨h1, rest, h2, _⟩ := this
          exact ⟨h1, rest, h2⟩)
        rw [e1] at he
        have hp : p' = p := by
          have := Option.some.inj he
          exact (Prod.mk.inj (Prod.mk.inj this).2).1
        subst hp
        exact wt_same r.map.node.value r.map.node.trail r.map.node.decisions
      · cases he; rfl
    obtain ⟨db, p, w, e1, e2⟩ := u1.collect
    unfold St.searchStep at hc
    rw [e1] at hc
    simp only at hc
    obtain ⟨z, e3, e4⟩ := bind_inv hc
    cases e4
    obtain ⟨f1, f2, f3⟩ := e2.conflictStep_wt (k := k) u2 e u3 e3 hu
    refine ⟨?_, f2, ?_⟩
    · show { z.sched with conflicts := z.sched.conflicts + 1 } = _
      rw [f1]
      show { u.sched with conflicts := u.sched.conflicts + 1 } = _
      rw [u5, t4]
    · have : p.wt k = t.p.wt k := by rw [hnode _ _ _ e1, u4]
      rw [← this]; exact f3
  have r2 : ∀ u : St α, RInv F A ids u → u.sat = .unknown → u.varCount = k → u.p = t.p → u.sched = t.sched →
      (u.midsStep e).searchStep e = .ok (s', b) →
      s'.sched = { t.sched with conflicts := s.sched.conflicts + 1 } ∧ s'.varCount = k ∧ t.p.wt k < s'.p.wt k := by
    intro u u1 u2 u3 u4 u5 hc
    unfold St.midsStep at hc
    by_cases hm : u.sched.conflicts % e.reduceMids = 0
    · rw [if_pos hm] at hc
      exact r3 _ u1.reduceMids u2 u3 u4 u5 hc
    · rw [if_neg hm] at hc
      exact r3 _ u1 u2 u3 u4 u5 hc
  simp only at hc
  by_cases hl : t.sched.conflicts % e.reduceLocals = 0
  · rw [if_pos hl] at hc
    obtain ⟨u, e1, e2, e3⟩ := t1.reduceLocals
    rw [e1, ok_bind] at hc
    exact r2 u e2 (e3.sat.trans t2) (e3.count.trans t3) (St.reduceLocals_p e1) e3.sched hc
  · rw [if_neg hl] at hc
    exact r2 _ t1 t2 t3 rfl rfl hc

/-! ### The loop -/

theorem St.solveLoop_mono (e : Env α) : ∀ {n m : Nat} {s s' : St α}, n ≤ m → St.solveLoop e n s = .ok s' → St.solveLoop e m s = .ok s'
  | 0, _, _, _, _, h => by cases h
  | n + 1, 0, _, _, hm, _ => absurd hm (by omega)
  | n + 1, m + 1, s, s', hm, h => by
    rw [St.solveLoop] at h ⊢
    obtain ⟨⟨t, b⟩, h1, h2⟩ := bind_inv h
    rw [h1, ok_bind]
    cases b with
    | false => exact h2
    | true => exact St.solveLoop_mono e (by omega) h2

/-- One step from a state without an answer. -/
theorem After.solveLoop_step {s : St α} (h : After F A ids s) (e : Env α) (hk : s.varCount = k) {n : Nat}
    (hn : 0 < n) (hrest : s.sat = .unknown → ∀ s', After F A ids s' → s'.sat = .unknown →
      s'.sched = { (s.restartStep e).sched with conflicts := s.sched.conflicts + 1 } → s'.varCount = k →
      (s.restartStep e).p.wt k < s'.p.wt k → ∃ z, St.solveLoop e n s' = .ok z) :
    ∃ z, St.solveLoop e (n + 1) s = .ok z := by
  by_cases hs : s.sat = .unknown
  · obtain ⟨s', b, e1, e2, e3, e4⟩ := h.scheduleStep e
    rw [St.solveLoop, e1, ok_bind]
    cases b with
    | false => exact ⟨s', rfl⟩
    | true =>
      simp only [if_true]
      by_cases hu : s'.sat = .unknown
      · obtain ⟨f1, f2, f3⟩ := h.scheduleStep_wt e hk hs e1 hu
        exact hrest hs s' e2 hu f1 f2 f3
      · obtain ⟨m, rfl⟩ : ∃ m, n = m + 1 := ⟨n - 1, by omega⟩
        refine ⟨s', ?_⟩
        rw [St.solveLoop]
        unfold St.scheduleStep
        rw [if_pos hu, ok_bind]
        rfl
  · refine ⟨s, ?_⟩
    rw [St.solveLoop]
    unfold St.scheduleStep
    rw [if_pos hs, ok_bind]
    rfl

/-- Without a restart. -/
theorem After.ends_quiet (e : Env α) : ∀ (K : Nat) {s : St α}, After F A ids s → s.varCount = k → 2 ^ k ≤ s.p.wt k + K →
    (s.sched.nextRestart < s.sched.conflicts ∨ s.sched.conflicts + K ≤ s.sched.nextRestart) →
    ∃ z, St.solveLoop e (K + 1) s = .ok z
  | 0, s, h, hk, hw, _ => by
    have hs : s.sat ≠ .unknown := by
      intro hs
      have hi := (h.run (by rw [hs]; simp)).1
      have := hi.core.c.tr.wt_lt (by rw [← hk]; exact hi.trail_lt) (n := k)
      omega
    refine ⟨s, ?_⟩
    rw [St.solveLoop]
    unfold St.scheduleStep
    rw [if_pos hs, ok_bind]
    rfl
  | K + 1, s, h, hk, hw, hr => by
    refine h.solveLoop_step e hk (Nat.succ_pos _) (fun hs s' a1 a2 a3 a4 a5 => ?_)
    have hq : s.restartStep e = s := by
      unfold St.restartStep
      rw [if_neg]; omega
    rw [hq] at a3 a5
    refine After.ends_quiet e K a1 a4 (by omega) ?_
    rw [a3]
    simp only
    omega

/-- The conflicts until `j` further restarts are over. -/
def waits (scale : Nat) (L : Luby) : Nat → Nat
  | 0 => 0
  | j + 1 => scale * L.advance.1.toNat + waits scale L.advance.2 j

/-- With restarts. -/
theorem After.ends (e : Env α) : ∀ (j d : Nat) {s : St α}, After F A ids s → s.varCount = k →
    (((s.sched.luby.after j).advance.1).toNat * e.lubyScale = 0 ∨ 2 ^ k ≤ ((s.sched.luby.after j).advance.1).toNat * e.lubyScale) →
    s.sched.nextRestart = s.sched.conflicts + d →
    ∃ z, St.solveLoop e (d + waits e.lubyScale s.sched.luby j + 2 ^ k + 2) s = .ok z := by
  have hpos := Nat.two_pow_pos k
  intro j
  induction j with
  | zero =>
    intro d
    induction d with
    | zero =>
      intro s h hk ho hd
      refine h.solveLoop_step e hk (by omega) (fun hs s' a1 a2 a3 a4 a5 => ?_)
      have hq : (s.restartStep e).sched.nextRestart = s.sched.nextRestart + e.lubyScale * s.sched.luby.advance.1.toNat := by
        unfold St.restartStep
        rw [if_pos (by omega)]
        rfl
      have ho : (s.sched.luby.advance.1).toNat * e.lubyScale = 0 ∨ 2 ^ k ≤ (s.sched.luby.advance.1).toNat * e.lubyScale := ho
      rw [Nat.mul_comm] at ho
      obtain ⟨z, hz⟩ := After.ends_quiet e (2 ^ k - 1) a1 a4 (by omega) (by
        rw [a3]
        simp only
        rw [hq]
        omega)
      exact ⟨z, St.solveLoop_mono e (by omega) hz⟩
    | succ d ih =>
      intro s h hk ho hd
      refine h.solveLoop_step e hk (by omega) (fun hs s' a1 a2 a3 a4 a5 => ?_)
      have hq : s.restartStep e = s := by
        unfold St.restartStep
        rw [if_neg]; omega
      rw [hq] at a3 a5
      obtain ⟨z, hz⟩ := ih a1 a4 (by rw [a3]; exact ho) (by rw [a3]; simp only; omega)
      rw [a3] at hz
      exact ⟨z, St.solveLoop_mono e (by simp only; omega) hz⟩
  | succ j ihj =>
    intro d
    induction d with
    | zero =>
      intro s h hk ho hd
      refine h.solveLoop_step e hk (by omega) (fun hs s' a1 a2 a3 a4 a5 => ?_)
      have hq : (s.restartStep e).sched.nextRestart = s.sched.nextRestart + e.lubyScale * s.sched.luby.advance.1.toNat ∧
          (s.restartStep e).sched.luby = s.sched.luby.advance.2 := by
        unfold St.restartStep
        rw [if_pos (by omega)]
        exact ⟨rfl, rfl⟩
      have ho : ((s.sched.luby.advance.2.after j).advance.1).toNat * e.lubyScale = 0 ∨
        2 ^ k ≤ ((s.sched.luby.advance.2.after j).advance.1).toNat * e.lubyScale := ho
      by_cases hz : e.lubyScale * s.sched.luby.advance.1.toNat = 0
      · obtain ⟨z, hz⟩ := After.ends_quiet e (2 ^ k) a1 a4 (by omega) (by
          rw [a3]
          simp only
          rw [hq.1]
          omega)
        exact ⟨z, St.solveLoop_mono e (by omega) hz⟩
      · obtain ⟨z, hz⟩ := ihj (e.lubyScale * s.sched.luby.advance.1.toNat - 1) a1 a4 (by rw [a3]; simp only; rw [hq.2]; exact ho) (by
          rw [a3]
          simp only
          rw [hq.1]
          omega)
        rw [a3] at hz
        simp only at hz
        rw [hq.2] at hz
        refine ⟨z, St.solveLoop_mono e ?_ hz⟩
        simp only [waits]
        omega
    | succ d ih =>
      intro s h hk ho hd
      refine h.solveLoop_step e hk (by omega) (fun hs s' a1 a2 a3 a4 a5 => ?_)
      have hq : s.restartStep e = s := by
        unfold St.restartStep
        rw [if_neg]; omega
      rw [hq] at a3 a5
      obtain ⟨z, hz⟩ := ih a1 a4 (by rw [a3]; exact ho) (by rw [a3]; simp only; omega)
      rw [a3] at hz
      exact ⟨z, St.solveLoop_mono e (by simp only; omega) hz⟩

/-! ### The sequence reaches 0 -/

theorem Luby.after_add (L : Luby) (i j : Nat) : L.after (i + j) = (L.after i).after j := by
  induction i generalizing L with
  | zero => rw [Nat.zero_add]; rfl
  | succ i ih => rw [Nat.succ_add]; exact ih _

theorem Luby.block : ∀ (i : Nat) (L : Luby), L.v <<< i = 0 → ∃ j, (L.after j).v = 0 ∨ (L.u ≠ 0 ∧ L.after j = { u := L.u + 1, v := 1 })
  | 0, L, h => ⟨0, .inl (by rw [BitVec.shiftLeft_zero] at h; exact h)⟩
  | i + 1, L, h => by
    by_cases hc : L.u &&& (-L.u) = L.v
    · by_cases hu : L.u = 0
      · refine ⟨0, .inl ?_⟩
        show L.v = 0
        rw [← hc, hu]; rfl
      · refine ⟨1, .inr ⟨hu, ?_⟩⟩
        show L.advance.2 = _
        unfold Luby.advance
        rw [if_pos hc]
    · obtain ⟨j, hj⟩ := Luby.block i { u := L.u, v := L.v <<< 1 } (by
        show (L.v <<< 1) <<< i = 0
        rw [← BitVec.shiftLeft_add, Nat.add_comm]; exact h)
      have : L.after (j + 1) = Luby.after { u := L.u, v := L.v <<< 1 } j := by
        show L.advance.2.after j = _
        unfold Luby.advance
        rw [if_neg hc]
      exact ⟨j + 1, by rw [this]; exact hj⟩

theorem Luby.reaches : ∀ (m : Nat) (L : Luby), (-L.u).toNat ≤ m → ∃ j, (L.after j).v = 0
  | m, L, h => by
    obtain ⟨j, hj | ⟨hu, hj⟩⟩ := Luby.block 64 L (BitVec.shiftLeft_eq_zero (Nat.le_refl _))
    · exact ⟨j, hj⟩
    · have hlt : (-(L.u + 1)).toNat < (-L.u).toNat := by
        have hp : (-L.u).toNat ≠ 0 := by
          intro h0
          apply hu
          have : -L.u = 0 := BitVec.eq_of_toNat_eq h0
          rw [← BitVec.neg_neg (x := L.u), this]; rfl
        have : -(L.u + 1) = -L.u - 1 := by
          rw [BitVec.neg_add]
        rw [this, BitVec.toNat_sub]
        have h1 : (1 : BitVec 64).toNat = 1 := rfl
        have := (-L.u).isLt
        rw [h1]
        omega
      match m, h with
      | 0, h => omega
      | m + 1, h =>
        obtain ⟨i, hi⟩ := Luby.reaches m { u := L.u + 1, v := 1 } (by show (-(L.u + 1)).toNat ≤ m; omega)
        exact ⟨j + i, by rw [Luby.after_add, hj]; exact hi⟩

/-- `solve` ends in every state. -/
theorem After.halts {s : St α} (h : After F A ids s) (e : Env α) : ∃ N z, St.solveLoop e N s = .ok z := by
  by_cases hr : s.sched.nextRestart < s.sched.conflicts
  · obtain ⟨z, hz⟩ := After.ends_quiet e (2 ^ s.varCount) h rfl (by omega) (.inl hr)
    exact ⟨_, z, hz⟩
  · obtain ⟨j, hj⟩ := Luby.reaches _ s.sched.luby (Nat.le_refl _)
    obtain ⟨z, hz⟩ := After.ends e j (s.sched.nextRestart - s.sched.conflicts) h rfl (.inl (by
      show (s.sched.luby.after j).v.toNat * e.lubyScale = 0
      rw [hj]; simp)) (by omega)
    exact ⟨_, z, hz⟩

end Varisat.Solver
