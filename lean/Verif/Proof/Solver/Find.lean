import Verif.Proof.Solver.Units
/-!
# `find_conflict`
-/
namespace Varisat.Solver

variable {α : Type} [LinearOrder α]
variable {F : List (List Lit)} {A : List Lit} {ids : Nat → Nat}

/-- What is left when the formula turned out to be unsatisfiable. -/
structure Weak (s : St α) : Prop where
  v : VInv s.vars
  q : QInv s.vsids s.vars s.p
  fl : ∀ v, s.vflags v = false
  asm : AsmOk s.vars s.asm.lits
  l0 : L0 s.p

theorem SInv.weak {s : St α} (h : SInv F A ids s) (hl : L0 s.p) : Weak s := ⟨h.v, h.q, h.fl, h.asm, hl⟩

/-- What `find_conflict` keeps. -/
structure Frame (s s' : St α) : Prop where
  vars : VLess s.vars s'.vars
  sat : s'.sat = s.sat
  model : s'.model = s.model
  formulaEmpty : s'.formulaEmpty = s.formulaEmpty
  sched : s'.sched = s.sched
  count : s'.vsids.count = s.vsids.count

theorem Frame.refl (s : St α) : Frame s s := ⟨VLess.refl _, rfl, rfl, rfl, rfl, rfl⟩
theorem Frame.trans {a b c : St α} (h : Frame a b) (k : Frame b c) : Frame a c :=
  ⟨h.vars.trans k.vars, k.sat.trans h.sat, k.model.trans h.model, k.formulaEmpty.trans h.formulaEmpty,
    k.sched.trans h.sched, k.count.trans h.count⟩

theorem EnqSame.frame {s s' : St α} (h : EnqSame s s') : Frame s s' :=
  ⟨by rw [h.vars]; exact VLess.refl _, h.sat, h.model, h.formulaEmpty, h.sched, by rw [h.vsids]⟩

/-- The outcome of `find_conflict`. -/
def FoundOk (F : List (List Lit)) (A : List Lit) (ids : Nat → Nat) (s' : St α) : St.Found → Prop
  | .conflict c => (s'.p.decisions = [] ∧ Unsat F ∧ Weak s') ∨
      (0 < s'.p.curLevel ∧ SInv F A ids s' ∧ L0 s'.p ∧ CRes s'.vars.pres (cls s'.bins.byLit s'.db) s'.p c)
  | .assumption => SInv F A ids s' ∧ Prop2 s'.bins.byLit s'.db s'.p ∧ L0 s'.p ∧ UnsatUnder F A
  | .none => SInv F A ids s' ∧ Prop2 s'.bins.byLit s'.db s'.p ∧ L0 s'.p ∧ s'.p.qhead = s'.p.trail.length ∧
      (∀ v, s'.vars.pres v → s'.p.value v ≠ none) ∧ s'.asm.lits.length ≤ s'.p.curLevel

/-- The clause of a conflict. -/
theorem conflict_sat {C : Cl} {c : Conflict} (h : c.IsIn C.bin C.lits C.live) {a : Asg} (hs : C.Sat a) :
    clauseSat a (c.lits C.lits) := by
  cases c with
  | binary x y =>
    have hx : x ∈ C.bin y.neg := h
    show clauseSat a [x, y]
    rw [clauseSat_cons, clauseSat_singleton]
    by_cases hy : y.holds a
    · exact .inr hy
    · exact .inl (hs.bin _ _ hx (by rw [Lit.holds_neg]; exact hy))
  | long c => exact hs.long c h

/-- A conflict in level 0. -/
theorem Core.unsat {bin : Lit → List Lit} {w : Wl} {db : Db α} {x : Vars} {p : Pt} (h : Core F ids bin w db x p)
    (hd : p.decisions = []) {c : Conflict} (hc : CRes x.pres (cls bin db) p c) : Unsat F := by
  intro τ hτ
  obtain ⟨a, b, _⟩ := h.s1 τ hτ
  obtain ⟨l, hl, hh⟩ := conflict_sat hc.isIn a
  have hf := hc.false_ l hl
  rw [← Pt.isTrue_neg] at hf
  have := b l.neg ((Pt.root_level0 h.c.tr hd).2 hf)
  rw [Lit.holds_neg] at this
  exact this hh

theorem Pt.Ok.curLevel_le {p : Pt} (h : p.Ok) : p.curLevel ≤ p.trail.length := by
  have h1 : p.decisions.Subperm (List.range p.trail.length) := by
    apply List.subperm_of_subset
    · exact h.sorted.imp (fun h => Nat.ne_of_lt h)
    · intro d hd; exact List.mem_range.2 (h.dlt d hd)
  simpa [Pt.curLevel] using h1.length_le

theorem SInv.curLevel_le {s : St α} (h : SInv F A ids s) : s.p.curLevel ≤ s.varCount :=
  Nat.le_trans h.core.c.tr.curLevel_le (h.core.c.tr.length_le (fun l hl => h.lt _ (h.core.c.pres l hl)))

/-- The loop of `find_conflict`. -/
theorem SInv.findLoop : ∀ (n : Nat) {s : St α}, SInv F A ids s → Prop2 s.bins.byLit s.db s.p → L0 s.p →
    s.varCount + 2 ≤ n + s.p.curLevel →
    ∃ s' o, St.findLoop n s = .ok (s', o) ∧ Frame s s' ∧ FoundOk F A ids s' o
  | 0, s, h, _, _, hn => by have := h.curLevel_le; omega
  | n + 1, s, h, h2, hl0, hn => by
    rw [St.findLoop]
    obtain ⟨s1, o, e1, e2, e3, e4, e5, e6, e7⟩ := h.propagate h2
    rw [e1, ok_bind]
    simp only
    have hdec : s1.p.decisions = s.p.decisions := e3.ext.decisions
    have hfr1 : Frame s s1 := by rw [e4]; exact ⟨VLess.refl _, rfl, rfl, rfl, rfl, rfl⟩
    have hcur : s1.p.curLevel = s.p.curLevel := by unfold Pt.curLevel; rw [hdec]
    -- the state before assumptions are looked at
    have key : ∀ u, SInv F A ids u → Prop2 u.bins.byLit u.db u.p → L0 u.p → u.p.qhead = u.p.trail.length →
        Frame s u → u.p.curLevel = s.p.curLevel →
        ∃ s' o, (u.enqueueAssumption >>= fun q =>
          match q.2 with
          | .enqueued => St.findLoop n q.1
          | .conflict => pure (q.1, St.Found.assumption)
          | .done => if (q.1.makeDecision).2 then St.findLoop n (q.1.makeDecision).1
              else pure ((q.1.makeDecision).1, St.Found.none)) = .ok (s', o) ∧ Frame s s' ∧ FoundOk F A ids s' o := by
      intro u k1 k2 k3 k4 k5 k6
      obtain ⟨t, r, f1, f2, f3, f4, f5, f6⟩ := k1.enqueueAssumption k2 k4 k3
      have hfr := k5.trans f3.frame
      have hvc : t.varCount = s.varCount := hfr.count
      rw [f1, ok_bind]
      cases r with
      | enqueued =>
        simp only at f6 ⊢
        obtain ⟨s', o', g1, g2, g3⟩ := SInv.findLoop n f2 f4 f5 (by rw [hvc, f6, k6]; omega)
        exact ⟨s', o', g1, hfr.trans g2, g3⟩
      | conflict =>
        simp only at f6 ⊢
        exact ⟨t, .assumption, rfl, hfr, f2, f4, f5, f6⟩
      | done =>
        simp only at f6 ⊢
        have htq : t.p.qhead = t.p.trail.length := by rw [f6.1]; exact k4
        obtain ⟨z, b, g1, g2, g3, g4, g5, g6, g7⟩ := f2.makeDecision f4 htq f5 f6.2
        rw [g1]
        have hcz : z.vsids.count = t.vsids.count := by
          have h1 := g2.q.count
          have h2 := f2.q.count
          rw [h1, h2]
          rw [g5]
        have hfz : Frame s z := hfr.trans (by
          refine ⟨?_, ?_, ?_, ?_, ?_, hcz⟩ <;> rw [g5]
          exact VLess.refl _)
        cases b with
        | true =>
          simp only [if_true]
          obtain ⟨s', o', i1, i2, i3⟩ := SInv.findLoop n g2 g3 g4 (by
            have : z.varCount = s.varCount := hfz.count
            rw [this, g6 rfl, f6.1, k6]; omega)
          exact ⟨s', o', i1, hfz.trans i2, i3⟩
        | false =>
          obtain ⟨g8, g9⟩ := g7 rfl
          refine ⟨z, .none, rfl, hfz, g2, g3, g4, by rw [g8]; exact htq, ?_, ?_⟩
          · rw [g5, g8]; exact g9
          · rw [g5]; show t.asm.lits.length ≤ z.p.curLevel; rw [g8]; exact f6.2
    by_cases hd : s1.p.decisions = []
    · cases o with
      | some c =>
        obtain ⟨q, L, p1, p2, p3, p4, p5, p6, p7⟩ := St.proveUnits_zero e2.core.c.tr hd e2.core.c.pres
        rw [p1]
        refine ⟨_, .conflict c, rfl, hfr1.trans ⟨VLess.refl _, rfl, rfl, rfl, rfl, rfl⟩,
          .inl ⟨p5, e2.core.unsat hd (e7 c rfl), ⟨e2.v, ?_, e2.fl, e2.asm, .inl ⟨p5, p6⟩⟩⟩⟩
        exact e2.q.mono (fun v _ hv => by rw [← p3]; exact hv)
      | none =>
        obtain ⟨x1, x2⟩ := e6 rfl
        obtain ⟨u1, b, u2, p1, p2, p3, p4, p5, p6, p7, p8, p9, p10, p11, p12, _, p13⟩ := e2.simplify x1 x2 hd
        rw [p1, ok_bind]
        simp only
        have hk := key u2 p3 (Prop2.nil p6) (.inl ⟨p5, p6⟩) (by rw [p6, p4]; rfl)
          (hfr1.trans ⟨p7, p9, p10, p11, p12, p13⟩) (by
            unfold Pt.curLevel
            rw [p5, ← hdec, hd])
        cases b with
        | true =>
          rw [if_pos rfl] at p2 ⊢
          rw [p2, ok_bind]
          exact hk
        | false =>
          rw [if_neg (by simp)] at p2 ⊢
          obtain rfl : u1 = u2 := by injection p2
          exact hk
    · have hpos : s1.p.curLevel ≠ 0 := by
        unfold Pt.curLevel; simpa using hd
      have hl1 : L0 s1.p := by
        rcases hl0 with h1 | h1
        · exact absurd (hdec.trans h1.1) hd
        · right; rw [hdec]; exact h1
      have p1 : s1.proveUnits = .ok (s1, false) := by unfold St.proveUnits; rw [if_neg hpos]
      rw [p1, ok_bind]
      cases o with
      | some c => exact ⟨s1, .conflict c, rfl, hfr1, .inr ⟨by omega, e2, hl1, e7 c rfl⟩⟩
      | none =>
        obtain ⟨x1, x2⟩ := e6 rfl
        exact key s1 e2 x1 hl1 x2 hfr1 hcur

theorem SInv.findConflict {s : St α} (h : SInv F A ids s) (h2 : Prop2 s.bins.byLit s.db s.p) (hl0 : L0 s.p) :
    ∃ s' o, s.findConflict = .ok (s', o) ∧ Frame s s' ∧ FoundOk F A ids s' o :=
  SInv.findLoop _ h h2 hl0 (by omega)

end Varisat.Solver
