import Verif.Proof.Solver.VarOps
/-!
# `unit_simplify`
-/
namespace Varisat.Solver

variable {α : Type} [LinearOrder α]
variable {F : List (List Lit)} {A : List Lit} {ids : Nat → Nat}

/-- Variables were only removed. -/
structure VLess (x x' : Vars) : Prop where
  gfu : x'.gfu = x.gfu
  ufg : x'.ufg = x.ufg
  userFree : x'.userFree = x.userFree
  live : ∀ g, x'.Live g → x.Live g
  data : ∀ (g : Nat) (d' : VarData), x'.data[g]? = some d' → ∃ d : VarData, x.data[g]? = some d ∧ d'.mode = d.mode ∧
    d'.assumed = d.assumed ∧ (d'.deleted = false → d.deleted = false)
  user : ∀ g u, x.ufg.map g = some u → x.Live g → x'.Live g
  len : x'.data.length = x.data.length
  slen : x'.gfs.len = x.gfs.len

theorem VLess.refl (x : Vars) : VLess x x :=
  ⟨rfl, rfl, rfl, fun _ h => h, fun _ d h => ⟨d, h, rfl, rfl, id⟩, fun _ _ _ h => h, rfl, rfl⟩
theorem VLess.trans {x y z : Vars} (h : VLess x y) (k : VLess y z) : VLess x z := by
  refine ⟨k.gfu.trans h.gfu, k.ufg.trans h.ufg, k.userFree.trans h.userFree, fun g hg => h.live g (k.live g hg), ?_, ?_,
    k.len.trans h.len, k.slen.trans h.slen⟩
  · intro g d h1
    obtain ⟨d1, h2, h3, h4, h5⟩ := k.data g d h1
    obtain ⟨d2, h6, h7, h8, h9⟩ := h.data g d1 h2
    exact ⟨d2, h6, h3.trans h7, h4.trans h8, fun h => h9 (h5 h)⟩
  · intro g u h1 h2
    exact k.user g u (by rw [h.ufg]; exact h1) (h.user g u h1 h2)

theorem VLess.unmap (x : Vars) (v g : Nat) : VLess x (x.unmap v g) :=
  ⟨rfl, rfl, rfl, fun _ h => h, fun _ d h => ⟨d, h, rfl, rfl, id⟩, fun _ _ _ h => h, rfl, rfl⟩

theorem VLess.drop {x : Vars} {g : Nat} {d : VarData} (hd : x.data[g]? = some d) (hu : x.ufg.map g = none) :
    VLess x (x.drop g d) := by
  refine ⟨rfl, rfl, rfl, fun k hk => ((Vars.drop_live hd).1 hk).2, ?_, ?_, ?_, rfl⟩
  · intro k e he
    rw [Vars.drop_get hd] at he
    by_cases hk : k = g
    · rw [if_pos hk] at he
      obtain rfl := Option.some.inj he
      exact ⟨d, by rw [hk]; exact hd, rfl, rfl, by simp⟩
    · rw [if_neg hk] at he; exact ⟨e, he, rfl, rfl, id⟩
  · intro k u h1 h2
    refine (Vars.drop_live hd).2 ⟨?_, h2⟩
    rintro rfl; rw [hu] at h1; cases h1
  · simp [Vars.drop]

/-- `delete_global_if_unused`. -/
theorem St.deleteGlobal_ok {s : St α} (hv : VInv s.vars) {g : Nat} {d : VarData} (hd : s.vars.data[g]? = some d)
    (hdel : d.deleted = false) :
    ∃ x L, s.deleteGlobal g = .ok { s with vars := x, log := L } ∧
      (x = s.vars ∨ (s.vars.ufg.map g = none ∧ s.vars.sfg.map g = none ∧ x = s.vars.drop g d)) := by
  unfold St.deleteGlobal
  by_cases h1 : (s.vars.ufg.map g).isSome = true
  · rw [if_pos h1]; exact ⟨s.vars, s.log, rfl, .inl rfl⟩
  rw [if_neg h1]
  by_cases h2 : (s.vars.sfg.map g).isSome = true
  · rw [if_pos h2]; exact ⟨s.vars, s.log, rfl, .inl rfl⟩
  rw [if_neg h2]
  unfold St.data?
  rw [hd]
  simp only
  rw [if_neg (by
    intro hm
    exact h1 (hv.hid g d hd hdel hm))]
  by_cases hi : (!d.isolated) = true
  · rw [if_pos hi]; exact ⟨s.vars, s.log, rfl, .inl rfl⟩
  · rw [if_neg hi]
    refine ⟨_, _, rfl, .inr ⟨by simpa using h1, by simpa using h2, rfl⟩⟩

theorem SInv.drop {s : St α} (h : SInv F A ids s) {g : Nat} {d : VarData} (hd : s.vars.data[g]? = some d)
    (hu : s.vars.ufg.map g = none) (hs : s.vars.sfg.map g = none) (L : List ProofStep) :
    SInv F A ids { s with vars := s.vars.drop g d, log := L } :=
  ⟨h.v.drop hd hu hs, ⟨h.q.wf, h.q.count, h.q.pres, h.q.all⟩, h.fl, h.asm.drop h.v hd hs, h.core.drop h.v hd hs, h.dec, h.as.congr (fun _ _ => rfl)⟩

/-- `remove_solver_var`. -/
theorem SInv.removeSolverVar {s : St α} (h : SInv F A ids s) (ht : s.p.trail = []) {v g : Nat} {d : VarData}
    (hg : s.vars.gfs.map v = some g) (hd : s.vars.data[g]? = some d) (hi : d.isolated = true)
    (ha : d.assumed = false) (hval : ∀ b, s.p.value v = some b → d.unit = some b) :
    ∃ x q L, s.removeSolverVar v = .ok { s with vars := x, vsids := q, log := L } ∧
      SInv F A ids { s with vars := x, vsids := q, log := L } ∧ VLess s.vars x := by
  have hdel : d.deleted = false := by
    obtain ⟨d', h1, h2⟩ := h.v.slive v g hg
    rw [hd] at h1; obtain rfl := Option.some.inj h1; exact h2
  obtain ⟨q1, q2, q3⟩ := Vsids.makeUnavailable_wf h.q.wf v
  obtain ⟨a1, a2⟩ := h.asm.unmap hg hd ha
  have hpres : ∀ u, (s.vars.unmap v g).pres u ↔ u ≠ v ∧ s.vars.pres u := by
    intro u
    unfold Vars.pres
    show ((put s.vars.gfs.map v none) u).isSome = true ↔ _
    unfold put
    by_cases hu : u = v
    · simp [hu]
    · simp [hu]
  have hs : SInv F A ids ({ s with vars := s.vars.unmap v g, vsids := s.vsids.makeUnavailable v } : St α) := by
    refine ⟨h.v.unmap hg, ⟨q1, q2.trans h.q.count, ?_, ?_⟩, h.fl, a1, h.core.unmap ht hg hd hdel hi hval, h.dec, ?_⟩
    · intro u hu
      rw [q3] at hu
      exact (hpres u).2 ⟨hu.1, h.q.pres u hu.2⟩
    · intro u hu hn
      obtain ⟨h1, h2⟩ := (hpres u).1 hu
      exact (q3 u).2 ⟨h1, h.q.all u h2 hn⟩
    · exact h.as.congr a2
  unfold St.removeSolverVar
  rw [hg]
  simp only
  obtain ⟨x, L, e1, e2⟩ := St.deleteGlobal_ok (s := (St.emitG { s with
      vsids := s.vsids.makeUnavailable v
      vars := s.vars.unmap v g } (.solverVarName g none))) (h.v.unmap hg) hd hdel
  refine ⟨x, s.vsids.makeUnavailable v, L, e1, ?_⟩
  rcases e2 with rfl | ⟨h1, h2, rfl⟩
  · exact ⟨hs.log L, VLess.unmap _ v g⟩
  · exact ⟨hs.drop hd h1 h2 L, (VLess.unmap _ v g).trans (VLess.drop hd h1)⟩

theorem modify_set {l : List VarData} {g : Nat} {d : VarData} {f : VarData → VarData} (h : l[g]? = some d) :
    l.modify g f = l.set g (f d) := by
  apply List.ext_getElem?
  intro k
  rw [List.getElem?_modify]
  by_cases hk : g = k
  · subst hk
    rw [List.getElem?_set_self (List.getElem?_eq_some_iff.1 h).1, h]; simp
  · rw [List.getElem?_set_ne hk]; simp [hk]

theorem set_get {l : List VarData} {g : Nat} {d d' : VarData} (h : l[g]? = some d) (k : Nat) :
    (l.set g d')[k]? = if k = g then some d' else l[k]? := by
  by_cases hk : k = g
  · subst hk
    rw [if_pos rfl, List.getElem?_set_self (List.getElem?_eq_some_iff.1 h).1]
  · rw [if_neg hk, List.getElem?_set_ne (Ne.symm hk)]

theorem DataSame.set {x : Vars} {g : Nat} {d d' : VarData} (h : x.data[g]? = some d) (h1 : d'.deleted = d.deleted)
    (h2 : d'.mode = d.mode) (h3 : d'.assumed = d.assumed) : DataSame x (x.data.set g d') := by
  constructor
  · intro k e he
    rw [set_get h] at he
    by_cases hk : k = g
    · rw [if_pos hk] at he; obtain rfl := Option.some.inj he
      exact ⟨d, by rw [hk]; exact h, h1, h2, h3⟩
    · rw [if_neg hk] at he; exact ⟨e, he, rfl, rfl, rfl⟩
  · intro k e he
    rw [set_get h]
    by_cases hk : k = g
    · subst hk; rw [h] at he; obtain rfl := Option.some.inj he
      exact ⟨d', by rw [if_pos rfl], h1, h2, h3⟩
    · exact ⟨e, by rw [if_neg hk]; exact he, rfl, rfl, rfl⟩

theorem VLess.data_ {x : Vars} {data : List VarData} (h : DataSame x data) (hl : data.length = x.data.length) :
    VLess x { x with data := data } := by
  refine ⟨rfl, rfl, rfl, fun g hg => h.live.1 hg, ?_, fun g _ _ hg => h.live.2 hg, hl, rfl⟩
  intro g d' hd
  obtain ⟨d, h1, h2, h3, h4⟩ := h.some_ g d' hd
  exact ⟨d, h1, h3, h4, fun h => by rw [← h2]; exact h⟩

/-- The loop over the variables of `unit_simplify`. -/
theorem SInv.removeLoop : ∀ (vs : List Nat) {s : St α}, SInv F A ids s → s.p.trail = [] → s.p.decisions = [] →
    ∃ x q L, St.removeLoop vs s = .ok { s with vars := x, vsids := q, log := L } ∧
      SInv F A ids { s with vars := x, vsids := q, log := L } ∧ VLess s.vars x
  | [], s, h, _, _ => ⟨s.vars, s.vsids, s.log, rfl, h, VLess.refl _⟩
  | v :: vs, s, h, ht, hdc => by
    rw [St.removeLoop]
    cases hg : s.vars.gfs.map v with
    | none =>
      simp only [Option.isNone_none, if_true]
      exact SInv.removeLoop vs h ht hdc
    | some g =>
      simp only [Option.isNone_some, Bool.false_eq_true, if_false]
      obtain ⟨d, hd, hdel⟩ := h.v.slive v g hg
      have hglt : g < s.vars.data.length := (List.getElem?_eq_some_iff.1 hd).1
      unfold St.updSolverData
      rw [hg]
      simp only
      rw [if_pos hglt, modify_set hd, ok_bind]
      obtain ⟨d1, hd1⟩ : ∃ d1, d1 = (if (s.p.value v).isSome = true then { d with unit := s.p.value v, isolated := true } else d) := ⟨_, rfl⟩
      rw [← hd1]
      have hsame : DataSame s.vars (s.vars.data.set g d1) := by
        refine DataSame.set hd ?_ ?_ ?_ <;> rw [hd1] <;> split <;> rfl
      have hget : (s.vars.data.set g d1)[g]? = some d1 := by rw [set_get hd, if_pos rfl]
      have hcore : Core F ids s.bins.byLit s.w s.db { s.vars with data := s.vars.data.set g d1 } s.p := by
        by_cases hval : (s.p.value v).isSome = true
        · rw [if_pos hval] at hd1
          obtain ⟨b, hb⟩ := Option.isSome_iff_exists.1 hval
          rw [hd1, hb]
          have hr : s.p.Root (Lit.mk' v b) := by
            rw [Pt.root_level0 h.core.c.tr hdc, Pt.isTrue_iff]
            simpa using hb
          refine h.core.record h.v hg hd hr ?_
          intro hus
          have hatt : s.p.Att v := by
            rcases hus with ⟨c, hc, l, hl, rfl⟩ | ⟨l, m, hm, rfl⟩
            · exact (h.core.c.vars c hc l hl).2
            · exact (h.core.c.binVars l m hm).2
          obtain ⟨l, hl, _⟩ := hatt (by rw [hb]; simp)
          rw [ht] at hl; simp at hl
        · rw [if_neg hval] at hd1
          have : s.vars.data.set g d1 = s.vars.data := by
            apply List.ext_getElem?
            intro k
            rw [set_get hd, hd1]
            by_cases hk : k = g
            · subst hk; rw [if_pos rfl, hd]
            · rw [if_neg hk]
          rw [this]; exact h.core
      have hs1 : SInv F A ids { s with vars := { s.vars with data := s.vars.data.set g d1 } } :=
        ⟨h.v.data hsame, ⟨h.q.wf, h.q.count, h.q.pres, h.q.all⟩, h.fl, h.asm.data hsame, hcore, h.dec, h.as.congr (fun _ _ => rfl)⟩
      have hless : VLess s.vars { s.vars with data := s.vars.data.set g d1 } := VLess.data_ hsame (by simp)
      have hdata : (({ s with vars := { s.vars with data := s.vars.data.set g d1 } } : St α).vars.gfs.map v).bind
          (St.data? { s with vars := { s.vars with data := s.vars.data.set g d1 } }) = some d1 := by
        show (s.vars.gfs.map v).bind _ = _
        rw [hg]; exact hget
      rw [hdata]
      simp only
      by_cases hc : (d1.isolated && !d1.assumed) = true
      · rw [if_pos hc]
        simp only [Bool.and_eq_true, Bool.not_eq_true'] at hc
        obtain ⟨x, q, L, e1, e2, e3⟩ := hs1.removeSolverVar ht hg hget hc.1 hc.2 (by
          intro b hb
          have hb : s.p.value v = some b := hb
          rw [hd1, hb]; rfl)
        rw [e1, ok_bind]
        obtain ⟨x', q', L', f1, f2, f3⟩ := SInv.removeLoop vs e2 ht hdc
        exact ⟨x', q', L', f1, f2, (hless.trans e3).trans f3⟩
      · rw [if_neg hc]
        obtain ⟨x', q', L', f1, f2, f3⟩ := SInv.removeLoop vs hs1 ht hdc
        exact ⟨x', q', L', f1, f2, hless.trans f3⟩

theorem Prop2.nil {bin : Lit → List Lit} {db : Db α} {p : Pt} (h : p.qhead = 0) : Prop2 bin db p := by
  have hn : ∀ l, ¬ p.Done l := by rintro l ⟨k, hk, _⟩; omega
  exact ⟨fun l hl => absurd hl (hn l), fun c _ x _ hd => absurd hd (hn _)⟩

/-- `prove_units` and `unit_simplify` after propagation in level 0 with new assignments. -/
theorem SInv.simplify {s : St α} (h : SInv F A ids s) (h2 : Prop2 s.bins.byLit s.db s.p)
    (hq : s.p.qhead = s.p.trail.length) (hd : s.p.decisions = []) :
    ∃ s1 b s2, s.proveUnits = .ok (s1, b) ∧ (if b then s1.unitSimplify else .ok s1) = .ok s2 ∧
      SInv F A ids s2 ∧ s2.p.trail = [] ∧ s2.p.decisions = [] ∧ s2.p.qhead = 0 ∧ VLess s.vars s2.vars ∧
      s2.asm = s.asm ∧ s2.sat = s.sat ∧ s2.model = s.model ∧ s2.formulaEmpty = s.formulaEmpty ∧ s2.sched = s.sched ∧
      (b = false → s2 = s) ∧ s2.vsids.count = s.vsids.count := by
  obtain ⟨q, L, e1, e2, e3, e4, e5, e6, e7⟩ := St.proveUnits_zero h.core.c.tr hd h.core.c.pres
  by_cases ht : s.p.trail = []
  · obtain ⟨rfl, rfl⟩ := e7 ht
    rw [e1]
    refine ⟨s, false, s, by rw [ht]; rfl, rfl, h, ht, hd, e6, VLess.refl _, rfl, rfl, rfl, rfl, rfl, fun _ => rfl, rfl⟩
  · have hb : (!s.p.trail.isEmpty) = true := by simpa using ht
    rw [hb] at e1
    rw [e1]
    have hlo : Loose F ids s.bins.byLit s.db s.vars q := h.core.loose h2 hq hd e2 e3 e4 e5
    obtain ⟨b1, L1, f1, f2, f3⟩ := St.simplifyBinary_ok (s := { s with p := q, log := L }) hlo
    obtain ⟨b2, db2, L2, ks, g1, g2, g3, g4, g5, g6, g7⟩ := St.filterLoop_ok s.db.clauses
      (s := { s with
        p := q
        bins := b1
        w := s.w.disable
        log := L1 }) f2 f3 (fun _ hc => hc) hlo.dbi.nodup
    have hks : ks = db2.iter := by rw [g6]; unfold Db.iter; rw [g4]
    have hcore2 : Core F ids b2.byLit s.w.disable db2 s.vars q := by
      refine g2.core rfl ?_
      rintro v (⟨c, hc, l, hl, rfl⟩ | ⟨l, m, hm, rfl⟩)
      · exact g7 c (by have := hc.1; rw [g4] at this; exact this) hc l hl
      · exact g3 l m hm
    obtain ⟨i1, i2⟩ := Db.iter_same hcore2.dbi
    have hcore3 : Core F ids b2.byLit s.w.disable { db2 with clauses := db2.iter } s.vars q :=
      (i2.map q).core hcore2 i1 (by intro he; cases he)
    have hs3 : SInv F A ids { s with
        p := q
        bins := b2
        w := s.w.disable
        db := { db2 with clauses := ks }
        log := L2 } := by
      refine ⟨h.v, h.q.mono (fun v _ hn => by rw [← e3]; exact hn), h.fl, h.asm, by rw [hks]; exact hcore3, ?_, h.as⟩
      intro i hi
      have hi : i < q.decisions.length := hi
      rw [e5] at hi; simp at hi
    obtain ⟨x, qq, L3, k1, k2, k3⟩ := SInv.removeLoop (List.range s.varCount) hs3 e4 e5
    refine ⟨_, true, _, rfl, ?_, k2, e4, e5, e6, k3, rfl, rfl, rfl, rfl, rfl, by simp, ?_⟩
    · simp only [if_true]
      unfold St.unitSimplify
      rw [f1, ok_bind]
      simp only
      rw [g1, ok_bind]
      exact k1
    · exact k2.q.count.trans (k3.slen.trans h.q.count.symm)

end Varisat.Solver
