import Verif.Model.Solver.Search
import Verif.Proof.Solver.Stored
/-!
# The invariant holds in all states inside a search
-/
namespace Varisat.Solver

variable {α : Type} [LinearOrder α]

/-- What holds in a place of the search. -/
def PhaseOk (s : St α) : Phase → Prop
  | .ready => Prop2 s.bins.byLit s.db s.p
  | .propagated => Prop2 s.bins.byLit s.db s.p ∧ s.p.qhead = s.p.trail.length
  | .fixpoint => Prop2 s.bins.byLit s.db s.p ∧ s.p.qhead = s.p.trail.length
  | .conflict c => CRes s.vars.pres (cls s.bins.byLit s.db) s.p c

theorem L0.pext {p q : Pt} (h : L0 p) (hx : PExt p q) (hd : p.decisions ≠ []) : L0 q := by
  rcases h with h1 | h1
  · exact absurd h1.1 hd
  · right
    rw [hx.ext.decisions]; exact h1

theorem SInv.restart {F : List (List Lit)} {A : List Lit} {ids : Nat → Nat} {s : St α} (h : SInv F A ids s)
    (h2 : Prop2 s.bins.byLit s.db s.p) (hl : L0 s.p) (e : Env α) :
    SInv F A ids (s.restartStep e) ∧ Prop2 (s.restartStep e).bins.byLit (s.restartStep e).db (s.restartStep e).p ∧
      L0 (s.restartStep e).p ∧ (s.restartStep e).sat = s.sat := by
  unfold St.restartStep
  by_cases hr : s.sched.nextRestart = s.sched.conflicts
  · rw [if_pos hr]
    obtain ⟨a, b, c⟩ := h.backtrack' h2 hl s.asm.levels
    exact ⟨⟨a.v, a.q, a.fl, a.asm, a.core, a.dec, a.as⟩, b, c, rfl⟩
  · rw [if_neg hr]; exact ⟨h, h2, hl, rfl⟩

theorem SInv.learn_zero {F : List (List Lit)} {A : List Lit} {ids : Nat → Nat} {t : St α} (h : Weak t)
    (hd : t.p.decisions = []) (e : Env α) (c : Conflict) {s' : St α} (hs : t.learn e c = .ok s') : s'.sat = .unsat := by
  unfold St.learn at hs
  have han : analyze e t.p t.db.lits t.vflags t.vsids (t.varCount + 1) c =
      .ok { clause := [], backtrackTo := 0, involved := [], hashes := [clauseHash (c.lits t.db.lits)], flags := t.vflags, vsids := t.vsids } := by
    unfold analyze
    simp only
    rw [if_pos (by unfold Pt.curLevel; rw [hd]; rfl)]
  rw [han, ok_bind] at hs
  simp only [List.foldl_nil, List.length_nil] at hs
  rw [St.backtrack_none (by
    show t.p.curLevel ≤ 0
    unfold Pt.curLevel; rw [hd]; exact Nat.le_refl _)] at hs
  obtain ⟨L, hL⟩ := St.emit_ok (s := { t with
      db := (t.db.decayActivities e.car t.cbump).1
      cbump := (t.db.decayActivities e.car t.cbump).2
      tmp := t.tmp
      vflags := t.vflags
      vsids := t.vsids }) (x := .atClause (decide (0 > 2)) [] [clauseHash (c.lits t.db.lits)])
    (by intro l hl; cases hl)
  rw [hL, ok_bind] at hs
  cases hs
  rfl

theorem SearchFrom.invOf {S : St α → Prop} {Q : List (List Lit) → List Lit → (Nat → Nat) → Prop}
    (hS : ∀ s, S s → s.sat = .unknown → ∃ F A ids, Q F A ids ∧ SInv F A ids s ∧ Prop2 s.bins.byLit s.db s.p ∧ L0 s.p)
    {s : St α} {ph : Phase} (h : SearchFrom S s ph) :
    ∃ F A ids, Q F A ids ∧ SInv F A ids s ∧ PhaseOk s ph ∧ (s.p.decisions = [] ∨ L0 s.p) ∧ (ph = .ready ∨ ph = .fixpoint → L0 s.p) ∧
      s.sat = .unknown := by
  induction h with
  | @start s he hs =>
    obtain ⟨F, A, ids, hQ, k, k2, k3⟩ := hS s he hs
    exact ⟨F, A, ids, hQ, ⟨k.v, k.q, k.fl, k.asm, k.core, k.dec, k.as⟩, k2, .inr k3, fun _ => k3, hs⟩
  | restart e h ih =>
    obtain ⟨F, A, ids, hQ, h1, h2, _, h3, h4⟩ := ih
    obtain ⟨k1, k2, k3, k4⟩ := h1.restart h2 (h3 (.inl rfl)) e
    exact ⟨F, A, ids, hQ, k1, k2, .inr k3, fun _ => k3, k4.trans h4⟩
  | @reduceLocals s s' h he ih =>
    obtain ⟨F, A, ids, hQ, h1, h2, _, h3, h4⟩ := ih
    obtain ⟨t, k1, k2, k3⟩ := (RInv.mk h1 h2 (h3 (.inl rfl))).reduceLocals
    rw [he] at k1; cases k1
    exact ⟨F, A, ids, hQ, k2.i, k2.p2, .inr k2.l0, fun _ => k2.l0, k3.sat.trans h4⟩
  | reduceMids h ih =>
    obtain ⟨F, A, ids, hQ, h1, h2, _, h3, h4⟩ := ih
    have k := (RInv.mk h1 h2 (h3 (.inl rfl))).reduceMids
    exact ⟨F, A, ids, hQ, k.i, k.p2, .inr k.l0, fun _ => k.l0, h4⟩
  | collect h he ih =>
    obtain ⟨F, A, ids, hQ, h1, h2, _, h3, h4⟩ := ih
    obtain ⟨db, p, w, k1, k⟩ := (RInv.mk h1 h2 (h3 (.inl rfl))).collect
    rw [he] at k1; cases k1
    exact ⟨F, A, ids, hQ, k.i, k.p2, .inr k.l0, fun _ => k.l0, h4⟩
  | count h ih =>
    obtain ⟨F, A, ids, hQ, k, h2, h5, h3, h4⟩ := ih
    exact ⟨F, A, ids, hQ, ⟨k.v, k.q, k.fl, k.asm, k.core, k.dec, k.as⟩, h2, h5, h3, h4⟩
  | propagate h he ih =>
    obtain ⟨F, A, ids, hQ, h1, h2, _, h3, h4⟩ := ih
    obtain ⟨t, o, e1, e2, e3, e4, e5, e6, e7⟩ := h1.propagate h2
    rw [he] at e1; cases e1
    refine ⟨F, A, ids, hQ, e2, e6 rfl, ?_, by simp, by rw [e4]; exact h4⟩
    rcases h3 (.inl rfl) with k | k
    · exact .inl (e3.ext.decisions.trans k.1)
    · exact .inr (.inr (by rw [e3.ext.decisions]; exact k))
  | conflict h he ih =>
    obtain ⟨F, A, ids, hQ, h1, h2, _, h3, h4⟩ := ih
    obtain ⟨t, o, e1, e2, e3, e4, e5, e6, e7⟩ := h1.propagate h2
    rw [he] at e1; cases e1
    refine ⟨F, A, ids, hQ, e2, e7 _ rfl, ?_, by simp, by rw [e4]; exact h4⟩
    rcases h3 (.inl rfl) with k | k
    · exact .inl (e3.ext.decisions.trans k.1)
    · exact .inr (.inr (by rw [e3.ext.decisions]; exact k))
  | @simplify s s1 s' b h hp hs ih =>
    obtain ⟨F, A, ids, hQ, h1, ⟨h2, h2'⟩, h3, _, h4⟩ := ih
    by_cases hd : s.p.decisions = []
    · obtain ⟨u1, b, u2, p1, p2, p3, p4, p5, p6, p7, p8, p9, p10, p11, p12, _, p13⟩ := h1.simplify h2 h2' hd
      rw [hp] at p1; cases p1
      rw [hs] at p2; cases p2
      exact ⟨F, A, ids, hQ, p3, ⟨Prop2.nil p6, by rw [p6, p4]; rfl⟩, .inl p5, fun _ => .inl ⟨p5, p6⟩, p9.trans h4⟩
    · have hpos : s.p.curLevel ≠ 0 := by
        unfold Pt.curLevel; simpa using hd
      have p1 : s.proveUnits = .ok (s, false) := by unfold St.proveUnits; rw [if_neg hpos]
      rw [hp] at p1; cases p1
      cases hs
      have hl := h3.resolve_left hd
      exact ⟨F, A, ids, hQ, h1, ⟨h2, h2'⟩, .inr hl, fun _ => hl, h4⟩
  | assumption h he ih =>
    obtain ⟨F, A, ids, hQ, h1, ⟨h2, h2'⟩, _, h3, h4⟩ := ih
    obtain ⟨t, r, f1, f2, f3, f4, f5, f6⟩ := h1.enqueueAssumption h2 h2' (h3 (.inr rfl))
    rw [he] at f1; cases f1
    exact ⟨F, A, ids, hQ, f2, f4, .inr f5, fun _ => f5, f3.sat.trans h4⟩
  | decision h he hm ih =>
    obtain ⟨F, A, ids, hQ, h1, ⟨h2, h2'⟩, _, h3, h4⟩ := ih
    obtain ⟨t, r, f1, f2, f3, f4, f5, f6⟩ := h1.enqueueAssumption h2 h2' (h3 (.inr rfl))
    rw [he] at f1; cases f1
    simp only at f6
    obtain ⟨z, b, g1, g2, g3, g4, g5, g6, g7⟩ := f2.makeDecision f4 (by rw [f6.1]; exact h2') f5 f6.2
    rw [g1]
    exact ⟨F, A, ids, hQ, g2, g3, .inr g4, fun _ => g4, by rw [g5]; exact f3.sat.trans h4⟩
  | @learn s s1 s' c b e h hp hs hu ih =>
    obtain ⟨F, A, ids, hQ, h1, h2, h3, _, h4⟩ := ih
    by_cases hd : s.p.decisions = []
    · exfalso
      obtain ⟨q, L, p1, p2, p3, p4, p5, p6, p7⟩ := St.proveUnits_zero h1.core.c.tr hd h1.core.c.pres
      rw [hp] at p1; cases p1
      have := SInv.learn_zero (F := F) (A := A) (ids := ids) (t := { s with p := q, log := L })
        ⟨h1.v, h1.q.mono (fun v _ hv => by rw [← p3]; exact hv), h1.fl, h1.asm, .inl ⟨p5, p6⟩⟩ p5 e c hs
      rw [this] at hu; cases hu
    · have hpos : s.p.curLevel ≠ 0 := by
        unfold Pt.curLevel; simpa using hd
      have p1 : s.proveUnits = .ok (s, false) := by unfold St.proveUnits; rw [if_neg hpos]
      rw [hp] at p1; cases p1
      obtain ⟨t, e2, e3, e4, e5, e6⟩ := h1.learn (h3.resolve_left hd) e (by omega) h2
      rw [hs] at e2; cases e2
      exact ⟨F, A, ids, hQ, e3, e4, .inr e5, fun _ => e5, hu⟩

theorem SearchFrom.inv {s : St α} {ph : Phase} (h : Search s ph) :
    ∃ F A ids, SInv F A ids s ∧ PhaseOk s ph ∧ (s.p.decisions = [] ∨ L0 s.p) ∧ (ph = .ready ∨ ph = .fixpoint → L0 s.p) ∧
      s.sat = .unknown := by
  obtain ⟨F, A, ids, _, k⟩ := SearchFrom.invOf (Q := fun _ _ _ => True) (by
    rintro s ⟨_, he⟩ hs
    obtain ⟨a, ids, _, hi⟩ := he.inv
    have hu : s.sat ≠ .unsat := by rw [hs]; simp
    exact ⟨_, _, _, trivial, hi.sinv hu, (hi.b.run hu).2, hi.b.l0⟩) h
  exact ⟨F, A, ids, k⟩

/-- The states of a search that begins in a state with the invariant. -/
theorem SearchFrom.sinv {a : Api.Abs} {ids : Nat → Nat} {s0 s : St α} {ph : Phase} (hi : Inv a ids s0)
    (h : SearchFrom (fun x => x = s0) s ph) :
    SInv a.clauses a.assumptions ids s ∧ PhaseOk s ph ∧ (s.p.decisions = [] ∨ L0 s.p) ∧
      (ph = .ready ∨ ph = .fixpoint → L0 s.p) ∧ s.sat = .unknown := by
  obtain ⟨F, A, ids', ⟨rfl, rfl, rfl⟩, k⟩ := SearchFrom.invOf
    (Q := fun F A i => F = a.clauses ∧ A = a.assumptions ∧ i = ids) (by
      rintro s rfl hs
      have hu : s.sat ≠ .unsat := by rw [hs]; simp
      exact ⟨_, _, _, ⟨rfl, rfl, rfl⟩, hi.sinv hu, (hi.b.run hu).2, hi.b.l0⟩) h
  exact k

/-! ## The relation contains all states the search goes through -/

theorem bind_inv {ε β γ : Type} {x : Except ε β} {f : β → Except ε γ} {y : γ} (h : (x >>= f) = .ok y) :
    ∃ z, x = .ok z ∧ f z = .ok y := by
  cases x with
  | error e => cases h
  | ok z => exact ⟨z, rfl, h⟩

theorem SearchFrom.mono {S T : St α → Prop} (hST : ∀ s, S s → T s) {s : St α} {ph : Phase} (h : SearchFrom S s ph) :
    SearchFrom T s ph := by
  induction h with
  | start h1 h2 => exact .start (hST _ h1) h2
  | restart e _ ih => exact ih.restart e
  | reduceLocals _ h ih => exact ih.reduceLocals h
  | reduceMids _ ih => exact ih.reduceMids
  | collect _ h ih => exact ih.collect h
  | count _ ih => exact ih.count
  | propagate _ h ih => exact ih.propagate h
  | conflict _ h ih => exact ih.conflict h
  | simplify _ h k ih => exact ih.simplify h k
  | assumption _ h ih => exact ih.assumption h
  | decision _ h k ih => exact ih.decision h k
  | learn e _ h k l ih => exact ih.learn e h k l

/-- The end of a round of the search, `cdcl.rs:119-158`. -/
inductive FoundFrom (S : St α → Prop) : St α → St.Found → Prop
  | conflict {s s' : St α} {c : Conflict} {b : Bool} : SearchFrom S s (.conflict c) → s.proveUnits = .ok (s', b) →
    FoundFrom S s' (.conflict c)
  | assumption {s s' : St α} : SearchFrom S s .fixpoint → s.enqueueAssumption = .ok (s', .conflict) →
    FoundFrom S s' .assumption
  | none {s s' : St α} : SearchFrom S s .fixpoint → s.enqueueAssumption = .ok (s', .done) →
    s'.makeDecision.2 = false → FoundFrom S s'.makeDecision.1 .none

theorem SearchFrom.findLoop {S : St α → Prop} : ∀ (n : Nat) {s s' : St α} {o : St.Found}, SearchFrom S s .ready →
    St.findLoop n s = .ok (s', o) → FoundFrom S s' o
  | 0, _, _, _, _, h => by cases h
  | n + 1, s, s', o, hs, h => by
    rw [St.findLoop] at h
    obtain ⟨⟨s1, o1⟩, h1, h⟩ := bind_inv h
    obtain ⟨⟨s2, b⟩, h2, h⟩ := bind_inv h
    cases o1 with
    | some c' =>
      cases h
      exact .conflict (hs.conflict h1) h2
    | none =>
      simp only at h
      have key : ∀ {s3 : St α}, SearchFrom S s3 .fixpoint → (s3.enqueueAssumption >>= fun q =>
          match q.2 with
          | .enqueued => St.findLoop n q.1
          | .conflict => pure (q.1, St.Found.assumption)
          | .done => if (q.1.makeDecision).2 then St.findLoop n (q.1.makeDecision).1
              else pure ((q.1.makeDecision).1, St.Found.none)) = .ok (s', o) → FoundFrom S s' o := by
        intro s3 h3 h
        obtain ⟨⟨s4, r⟩, h4, h⟩ := bind_inv h
        cases r with
        | enqueued => exact SearchFrom.findLoop n (h3.assumption h4) h
        | conflict => cases h; exact .assumption h3 h4
        | done =>
          simp only at h
          by_cases hm : s4.makeDecision.2 = true
          · rw [if_pos hm] at h
            exact SearchFrom.findLoop n (h3.decision h4 hm) h
          · rw [if_neg hm] at h
            cases h
            exact .none h3 h4 (by simpa using hm)
      cases b with
      | true =>
        rw [if_pos rfl] at h
        obtain ⟨s3, h3, h⟩ := bind_inv h
        exact key ((hs.propagate h1).simplify h2 h3) h
      | false =>
        rw [if_neg (by simp)] at h
        exact key ((hs.propagate h1).simplify h2 rfl) h

/-- The state in which a search ends. -/
inductive EndsFrom (S : St α → Prop) : St α → Prop
  | model {s : St α} : FoundFrom S s .none → EndsFrom S s.reconstruct
  | assumption {s : St α} : FoundFrom S s .assumption → EndsFrom S { s with sat := .unsatUnder }
  | unsat {s s' : St α} {c : Conflict} (e : Env α) : FoundFrom S s (.conflict c) → s.learn e c = .ok s' → s'.sat ≠ .unknown →
    EndsFrom S s'

/-- A step of the loop of `solve`: the search goes on or it ended. -/
theorem SearchFrom.scheduleStep {S : St α → Prop} {s s' : St α} {e : Env α} {b : Bool} (h : SearchFrom S s .ready)
    (hsat : s.sat = .unknown) (hs : s.scheduleStep e = .ok (s', b)) :
    b = true ∧ ((s'.sat = .unknown ∧ SearchFrom S s' .ready) ∨
      ∃ t, EndsFrom S t ∧ s' = { t with sched := { t.sched with conflicts := t.sched.conflicts + 1 } }) := by
  have key : ∀ {t : St α}, SearchFrom S t .ready → (t.midsStep e).searchStep e = .ok (s', b) →
      b = true ∧ ((s'.sat = .unknown ∧ SearchFrom S s' .ready) ∨
      ∃ t, EndsFrom S t ∧ s' = { t with sched := { t.sched with conflicts := t.sched.conflicts + 1 } }) := by
    intro t ht h
    have hm : SearchFrom S (t.midsStep e) .ready := by
      unfold St.midsStep
      split
      · exact ht.reduceMids
      · exact ht
    unfold St.searchStep at h
    cases hc : (t.midsStep e).db.collect (t.midsStep e).p (t.midsStep e).w with
    | none => rw [hc] at h; cases h
    | some r =>
      obtain ⟨db, p, w⟩ := r
      rw [hc] at h
      simp only at h
      obtain ⟨s1, h1, h⟩ := bind_inv h
      cases h
      refine ⟨rfl, ?_⟩
      unfold St.conflictStep at h1
      obtain ⟨⟨s2, o⟩, h2, h1⟩ := bind_inv h1
      have k := SearchFrom.findLoop _ (hm.collect hc) h2
      cases o with
      | none =>
        cases h1
        exact .inr ⟨_, .model k, rfl⟩
      | assumption =>
        cases h1
        exact .inr ⟨_, .assumption k, rfl⟩
      | conflict c =>
        by_cases hs1 : s1.sat = .unknown
        · cases k with
          | conflict k1 k2 => exact .inl ⟨hs1, (k1.learn e k2 h1 hs1).count⟩
        · exact .inr ⟨s1, .unsat e k h1 hs1, rfl⟩
  unfold St.scheduleStep at hs
  rw [if_neg (by rw [hsat]; simp)] at hs
  simp only at hs
  by_cases hr : (s.restartStep e).sched.conflicts % e.reduceLocals = 0
  · rw [if_pos hr] at hs
    obtain ⟨t, h1, hs⟩ := bind_inv hs
    exact key ((h.restart e).reduceLocals h1) hs
  · rw [if_neg hr] at hs
    exact key (h.restart e) hs

theorem EndsFrom.sat {S : St α → Prop} {s : St α} (h : EndsFrom S s) : s.sat ≠ .unknown := by
  cases h with
  | model h => show SatState.sat ≠ .unknown; simp
  | assumption h => simp
  | unsat e h k1 k2 => exact k2

theorem SearchFrom.solveLoop {S : St α → Prop} {e : Env α} : ∀ (n : Nat) {s s' : St α}, SearchFrom S s .ready →
    s.sat = .unknown → St.solveLoop e n s = .ok s' →
    ∃ t, EndsFrom S t ∧ s' = { t with sched := { t.sched with conflicts := t.sched.conflicts + 1 } }
  | 0, _, _, _, _, h => by cases h
  | n + 1, s, s', h, hu, hs => by
    rw [St.solveLoop] at hs
    obtain ⟨⟨s1, b⟩, h1, hs⟩ := bind_inv hs
    obtain ⟨rfl, h2⟩ := h.scheduleStep hu h1
    simp only [if_true] at hs
    rcases h2 with ⟨h2, h3⟩ | ⟨t, h2, rfl⟩
    · exact SearchFrom.solveLoop n h3 h2 hs
    · refine ⟨t, h2, ?_⟩
      cases n with
      | zero => cases hs
      | succ n =>
        rw [St.solveLoop] at hs
        unfold St.scheduleStep at hs
        rw [if_pos h2.sat] at hs
        cases hs
        rfl

/-- `solve` returns at once if the answer is known; otherwise it returns the state in which a search that
begins in the current state ends. -/
theorem solve_trace {s s' : St α} {e : Env α} {n : Nat} {b : Bool} (h : s.solve e n = .ok (s', b)) :
    (s.sat ≠ .unknown ∧ s' = { s with invoked := true }) ∨
    (s.sat = .unknown ∧ ∃ t, EndsFrom (fun x => x = s) t ∧ s' = { t with sched := { t.sched with conflicts := t.sched.conflicts + 1 } }) := by
  unfold St.solve at h
  obtain ⟨s1, h1, h⟩ := bind_inv h
  cases h
  by_cases hu : s.sat = .unknown
  · exact .inr ⟨hu, SearchFrom.solveLoop n (.start rfl hu) hu h1⟩
  · left
    refine ⟨hu, ?_⟩
    cases n with
    | zero => cases h1
    | succ n =>
      rw [St.solveLoop] at h1
      unfold St.scheduleStep at h1
      rw [if_pos hu] at h1
      cases h1
      rfl

end Varisat.Solver
