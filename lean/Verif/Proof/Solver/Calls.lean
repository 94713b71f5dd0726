import Verif.Proof.Solver.Store
/-!
# The calls of the public interface: clauses, assumptions, solving
-/
namespace Varisat.Solver
open Api (Abs)

variable {α : Type} [LinearOrder α]
variable {F F' : List (List Lit)} {A : List Lit} {ids : Nat → Nat}

/-- The invariant between calls. -/
structure Inv (a : Abs) (ids : Nat → Nat) (s : St α) : Prop where
  b : Base a.clauses a.assumptions ids s
  n : Names a ids s.vars
  asm : AsmOk s.vars s.asm.lits
  as : s.sat ≠ .unsat → AsmDec s.p s.asm.lits ∧
    AsOk a.clauses a.assumptions ids s.vars s.asm.lits
  unsat : s.sat = .unsat → Unsat a.clauses ∧ s.p.decisions = []
  under : s.sat = .unsatUnder → UnsatUnder a.clauses a.assumptions

theorem Inv.sinv {a : Abs} {s : St α} (h : Inv a ids s) (hs : s.sat ≠ .unsat) : SInv a.clauses a.assumptions ids s :=
  ⟨h.b.v, h.b.q, h.b.fl, h.asm, (h.b.run hs).1, (h.as hs).1, (h.as hs).2⟩

theorem AsmDec.zero {p : Pt} (h : p.decisions = []) (ls : List Lit) : AsmDec p ls := by
  intro i hi
  unfold Pt.curLevel at hi
  rw [h] at hi
  exact absurd hi (Nat.not_lt_zero _)

/-- Another state of the answer. -/
theorem Inv.setSat {a : Abs} {s : St α} (h : Inv a ids s) {t : SatState} {fe : Bool} (hu : s.sat = .unsat ↔ t = .unsat)
    (hsat : t ≠ .sat) (hun : t = .unsatUnder → s.sat = .unsatUnder) :
    Inv a ids { s with
      sat := t
      formulaEmpty := fe } := by
  refine ⟨⟨h.b.v, h.b.q, h.b.fl, h.b.l0, h.b.inj, h.b.hidA, fun k => h.b.run (fun k' => k (hu.1 k')), fun k => absurd k hsat⟩,
    h.n, h.asm, fun k => h.as (fun k' => k (hu.1 k')), fun k => h.unsat (hu.2 k), fun k => h.under (hun k)⟩

/-- `full_restart`. -/
theorem Inv.fullRestart {a : Abs} {s : St α} (h : Inv a ids s) : Inv a ids s.fullRestart ∧ Zero s.fullRestart.p := by
  have hz : ∀ p : Pt, L0 p → p.decisions = [] → Zero p := by
    intro p h1 h2
    rcases h1 with h1 | h1
    · exact h1
    · rw [h2] at h1; cases h1
  have hpl : Inv a ids { s with asm := { s.asm with levels := 0 } } :=
    ⟨⟨h.b.v, h.b.q, h.b.fl, h.b.l0, h.b.inj, h.b.hidA, h.b.run, h.b.sat⟩, h.n, h.asm, h.as, h.unsat, h.under⟩
  unfold St.fullRestart
  by_cases hs : s.sat = .unsat
  · obtain ⟨h1, h2⟩ := h.unsat hs
    rw [St.backtrack_none (by show s.p.decisions.length ≤ 0; rw [h2]; exact Nat.le_refl _)]
    exact ⟨hpl, hz _ h.b.l0 h2⟩
  · obtain ⟨k1, k2, k3⟩ := (hpl.sinv hs).backtrack' (hpl.b.run hs).2 hpl.b.l0 0
    have hd : (St.backtrack { s with asm := { s.asm with levels := 0 } } 0).p.decisions = [] := by
      cases hd : s.p.decisions with
      | nil =>
        rw [St.backtrack_none (by show s.p.decisions.length ≤ 0; rw [hd]; exact Nat.le_refl _)]
        exact hd
      | cons x xs =>
        have hd' : s.p.decisions[0]? = some x := by rw [hd]; rfl
        have := Pt.backtrack_curLevel hd'
        exact List.eq_nil_of_length_eq_zero this
    exact ⟨⟨⟨k1.v, k1.q, k1.fl, k3, hpl.b.inj, hpl.b.hidA, fun _ => ⟨k1.core, k2⟩, hpl.b.sat⟩, hpl.n, k1.asm,
      fun _ => ⟨k1.dec, k1.as⟩, fun k => absurd k hs, hpl.under⟩, hz _ k3 hd⟩

/-- The calls that create variables keep the invariant. -/
theorem Inv.grown {a b : Abs} {ids' : Nat → Nat} {s s' : St α} (h : Inv a ids s) (g : Grown a ids s b ids' s') : Inv b ids' s' := by
  have hsat : s'.sat = s.sat := by rw [g.same.eq]
  have hasm : s'.asm = s.asm := by rw [g.same.eq]
  refine ⟨g.base, g.names, ?_, ?_, ?_, ?_⟩
  · rw [hasm]; exact g.more.asmOk h.b.v h.asm
  · intro hs
    rw [hsat] at hs
    rw [hasm, g.clauses, g.assumptions]
    obtain ⟨h1, h2⟩ := h.as hs
    refine ⟨h1.ext g.same.decisions (fun k l hk => by unfold Pt.At at *; rw [g.same.trail]; exact hk), fun τ hτ => ?_, fun l hl k hk => ?_⟩
    · rw [← h2.iff τ hτ]
      refine forall_congr' fun l => forall_congr' fun hl => ?_
      exact g.more.vholds h.b.v (h.asm.pres l hl)
    · obtain ⟨k', hk'⟩ := Option.isSome_iff_exists.1 (h.asm.pres l hl)
      have := g.more.gfs _ _ hk'
      rw [hk] at this
      obtain rfl := Option.some.inj this
      rw [g.more.ids k (h.b.v.slive _ _ hk')]
      exact h2.mem l hl k hk'
  · intro hs
    rw [hsat] at hs
    rw [g.clauses, g.same.decisions]; exact h.unsat hs
  · intro hs
    rw [hsat] at hs
    rw [g.clauses, g.assumptions]; exact h.under hs

theorem cnfSat_snoc {τ : Asg} {c : List Lit} : cnfSat τ (F ++ [c]) ↔ cnfSat τ F ∧ clauseSat τ c := by
  unfold cnfSat
  simp only [List.mem_append, List.mem_singleton]
  constructor
  · intro h; exact ⟨fun d hd => h d (.inl hd), h c (.inr rfl)⟩
  · rintro ⟨h1, h2⟩ d (hd | rfl)
    · exact h1 d hd
    · exact h2

theorem Unsat.snoc {c : List Lit} (h : Unsat F) : Unsat (F ++ [c]) := fun τ hτ => h τ (cnfSat_snoc.1 hτ).1

theorem UnsatUnder.snoc {c : List Lit} (h : UnsatUnder F A) : UnsatUnder (F ++ [c]) A := by
  intro τ hτ; exact h τ (cnfSat_snoc.1 hτ).1

/-- The variables of converted literals. -/
theorem litOk_name {a : Abs} {x : Vars} (hn : Names a ids x) (hv : VInv x) {us ms : List Lit}
    (h : List.Forall₂ (LitOk x) us ms) : ∀ l ∈ us.map a.lit, l.var < a.next := by
  induction h with
  | nil => simp
  | @cons u m us ms h1 h2 ih =>
    intro l hl
    rw [List.map_cons] at hl
    rcases List.mem_cons.1 hl with rfl | hl
    · obtain ⟨g, k1, k2, k3⟩ := h1
      obtain ⟨d, k4, k5, _⟩ := hv.ulive _ _ k1
      unfold Abs.lit
      rw [hn.name, k1]
      simp only [Lit.var_mk', Option.map_some, Option.getD_some]
      exact hn.lt g ⟨d, k4, k5⟩
    · exact ih l hl

/-- The state seen after adding a clause. -/
def addAbs (a : Abs) (c : List Lit) : Abs :=
  { a.ensureLits c with clauses := a.clauses ++ [c.map (a.ensureLits c).lit] }

/-- `add_clause`. -/
theorem Inv.loadClause {e : Env α} (he : e.Ok) {a : Abs} {s : St α} (h : Inv a ids s) (c : List Lit) (hc : SampleOk s.vars c) :
    (s.sat = .unsat ∧ s.loadClause e c = .ok s) ∨
    ∃ s' ids', s.loadClause e c = .ok s' ∧ Inv (addAbs a c) ids' s' := by
  unfold St.loadClause
  by_cases hs : s.sat = .unsat
  · left; rw [if_pos hs]; exact ⟨hs, rfl⟩
  right
  rw [if_neg hs]
  simp only
  have h1 := h.setSat (t := if s.sat = .sat then .unknown else s.sat) (fe := false)
    (by by_cases hx : s.sat = .sat <;> simp [hx]) (by by_cases hx : s.sat = .sat <;> simp [hx])
    (by by_cases hx : s.sat = .sat <;> simp [hx])
  obtain ⟨h2, hz⟩ := h1.fullRestart
  have hv2 : ∃ t, t = St.fullRestart { s with sat := if s.sat = .sat then .unknown else s.sat, formulaEmpty := false } := ⟨_, rfl⟩
  obtain ⟨t, ht⟩ := hv2
  have htv : t.vars = s.vars := by rw [ht]; rfl
  have hts : t.sat = if s.sat = .sat then .unknown else s.sat := by rw [ht]; rfl
  rw [← ht] at h2 hz ⊢
  have hts1 : t.sat ≠ .unsat := by rw [hts]; by_cases hx : s.sat = .sat <;> simp [hx, hs]
  have hts2 : t.sat ≠ .sat := by rw [hts]; by_cases hx : s.sat = .sat <;> simp [hx]
  obtain ⟨u, ms, ids', e1, g, lk, so⟩ := St.solverFromUserLits_ok he c h2.b h2.n (by rw [htv]; exact hc)
  rw [e1, ok_bind]
  simp only
  have h3 := h2.grown g
  have hus : u.sat = t.sat := by rw [g.same.eq]
  have hua : u.asm = t.asm := by rw [g.same.eq]
  have huz : Zero u.p := ⟨g.same.decisions.trans hz.1, g.same.qhead.trans hz.2⟩
  obtain ⟨b, hb⟩ : ∃ b, b = a.ensureLits c := ⟨_, rfl⟩
  rw [← hb] at g h3
  obtain ⟨s', f1, f2, f3⟩ := h3.b.loadLits (F' := b.clauses ++ [c.map b.lit]) (c := c.map b.lit) (by rw [hus]; exact hts1)
    (by rw [hus]; exact hts2) huz e (ms := ms) (litOk_pres lk) (fun τ => cnfSat_snoc)
    (fun τ σ p hg => clause_iff h3.n h3.b.v lk hg p)
  have hadd : addAbs a c = { b with clauses := b.clauses ++ [c.map b.lit] } := by
    unfold addAbs; rw [← hb, g.clauses]
  refine ⟨s', ids', f1, ?_⟩
  rw [hadd]
  obtain ⟨D, v1, v2, v3⟩ := f2.vars
  have hgfs : s'.vars.gfs = u.vars.gfs := by rw [v1]
  refine ⟨f2.base, ⟨?_, ?_, ?_, ?_, by rw [v1]; exact (h3.n.dataLe v2).sz⟩, ?_, ?_, ?_, ?_⟩
  · rw [v1]; exact h3.n.name
  · rw [v1]; exact h3.n.len
  · intro k hk; rw [v1] at hk; exact h3.n.lt k (v2.live.1 hk)
  · rintro i (⟨d, hd, l, hl, rfl⟩ | hi)
    · rcases List.mem_append.1 hd with hd | hd
      · exact h3.n.occ _ (.inl ⟨d, hd, l, hl, rfl⟩)
      · simp only [List.mem_singleton] at hd
        subst hd
        exact litOk_name h3.n h3.b.v lk l hl
    · exact h3.n.occ _ (.inr hi)
  · rw [f2.asm]
    intro l hl
    obtain ⟨k, d, k1, k2, k3, k4⟩ := h3.asm l hl
    obtain ⟨d', k5, k6, k7, _⟩ := v2.none_ k d k2
    obtain ⟨d2, k8, k9⟩ := v3 k d' k5
    rw [k2] at k8
    obtain rfl := Option.some.inj k8
    exact ⟨k, d', by rw [hgfs]; exact k1, by rw [v1]; exact k5, k9.trans k3, by rw [k7]; exact k4⟩
  · intro hs'
    have has := (h3.as (by rw [hus]; exact hts1)).2
    rw [f2.asm]
    exact ⟨AsmDec.zero f2.zero.1 _, AsOk.congr ⟨fun τ hτ => has.iff τ (cnfSat_snoc.1 hτ).1, has.mem⟩ (fun l _ => by rw [hgfs])⟩
  · intro hs'
    refine ⟨?_, f2.zero.1⟩
    rcases f2.sat with k | k
    · rw [hs'] at k; exact absurd (hus.symm.trans k.symm) hts1
    · exact k.2
  · intro hs'
    rcases f2.sat with k | k
    · exact UnsatUnder.snoc (h3.under (by rw [← k]; exact hs'))
    · rw [k.1] at hs'; cases hs'

/-- The state seen after setting assumptions. -/
def assumeAbs (a : Abs) (ls : List Lit) : Abs :=
  { a.ensureLits ls with assumptions := ls.map (a.ensureLits ls).lit }

theorem asm_iff {a : Abs} {x : Vars} (hn : Names a ids x) {us ms : List Lit} (h : List.Forall₂ (LitOk x) us ms) {τ : Asg} :
    (∀ m ∈ ms, VHolds x ids τ m) ↔ allHold τ (us.map a.lit) := by
  induction h with
  | nil => simp [allHold]
  | @cons u m us ms h1 h2 ih =>
    have key : VHolds x ids τ m ↔ (a.lit u).holds τ := by
      obtain ⟨g, k1, k2, k3⟩ := h1
      unfold VHolds Lit.holds Abs.lit
      rw [k2, hn.name, k1, k3]
      simp
    simp only [List.map_cons, List.forall_mem_cons, allHold] at ih ⊢
    rw [key, ih]

theorem asm_mem {a : Abs} {x : Vars} (hn : Names a ids x) {us ms : List Lit} (h : List.Forall₂ (LitOk x) us ms) :
    ∀ m ∈ ms, ∀ g, x.gfs.map m.var = some g → Lit.mk' (ids g) (!m.isNeg) ∈ us.map a.lit := by
  induction h with
  | nil => simp
  | @cons u m us ms h1 h2 ih =>
    intro m' hm g hg
    rcases List.mem_cons.1 hm with rfl | hm
    · obtain ⟨k, k1, k2, k3⟩ := h1
      rw [hg] at k2
      obtain rfl := Option.some.inj k2
      rw [List.map_cons, List.mem_cons]
      left
      unfold Abs.lit
      rw [hn.name, k1, k3]
      simp
    · exact List.mem_cons_of_mem _ (ih m' hm g hg)

/-- `assume`. -/
theorem Inv.assume {e : Env α} (he : e.Ok) {a : Abs} {s : St α} (h : Inv a ids s) (ls : List Lit) (hc : SampleOk s.vars ls) :
    ∃ s' ids', s.assume e ls = .ok s' ∧ Inv (assumeAbs a ls) ids' s' := by
  unfold St.assume
  simp only
  obtain ⟨h1, hz⟩ := h.fullRestart
  have h2 := h1.setSat (t := if s.fullRestart.sat = SatState.unsat then SatState.unsat else SatState.unknown) (fe := s.fullRestart.formulaEmpty)
    (by by_cases hx : s.fullRestart.sat = .unsat <;> simp [hx]) (by by_cases hx : s.fullRestart.sat = .unsat <;> simp [hx])
    (by by_cases hx : s.fullRestart.sat = .unsat <;> simp [hx])
  obtain ⟨t, ht⟩ : ∃ t : St α, t = { s.fullRestart with sat := if s.fullRestart.sat = SatState.unsat then SatState.unsat else SatState.unknown } := ⟨_, rfl⟩
  have htv : t.vars = s.vars := by rw [ht]; rfl
  have hzt : Zero t.p := by rw [ht]; exact hz
  have hts : t.sat ≠ .sat ∧ t.sat ≠ .unsatUnder := by rw [ht]; by_cases hx : s.fullRestart.sat = .unsat <;> simp [hx]
  have h2' : Inv a ids t := by rw [ht]; exact h2
  have hta : s.fullRestart.asm.lits = t.asm.lits := by rw [ht]
  rw [← ht, hta]
  clear ht h2 h1 hz
  -- clearing
  obtain ⟨D, e1, e2⟩ := St.updLoop_ok (f := fun d => { d with assumed := false }) t.asm.lits h2'.b.v h2'.asm.pres
    (fun d => ⟨rfl, rfl⟩) (fun d => rfl)
  have hD : DataLe t.vars D := DataLe.upd (f := fun d => { d with assumed := false })
    (P := fun k => ∃ l ∈ t.asm.lits, t.vars.gfs.map l.var = some k) (fun d => ⟨rfl, rfl, rfl, id⟩) e2
  have b3 := h2'.b.dataLe hD (by
    intro g d' k1 k2
    rw [e2 g] at k1
    split at k1
    · cases k3 : t.vars.data[g]? with
      | none => rw [k3] at k1; cases k1
      | some d => rw [k3] at k1; obtain rfl := Option.some.inj k1; rfl
    · exact h2'.b.hidA g d' k1 k2)
  have n3 := h2'.n.dataLe hD
  rw [St.setAssumed_eq, e1, ok_bind]
  have hso : SampleOk { t.vars with data := D } ls := by
    intro l hl g d k1 k2
    obtain ⟨d0, k3, k4, k5, _⟩ := hD.some_ g d k2
    rw [k5]
    exact hc l hl g d0 (by rw [← htv]; exact k1) (by rw [← htv]; exact k3)
  -- creating
  obtain ⟨u, ms, ids', f1, g, lk, so⟩ := St.solverFromUserLits_ok he ls b3 n3 hso
  rw [f1, ok_bind]
  simp only
  have hus : u.sat = t.sat := by rw [g.same.eq]
  have huz : Zero u.p := ⟨g.same.decisions.trans hzt.1, g.same.qhead.trans hzt.2⟩
  obtain ⟨b, hb⟩ : ∃ b, b = a.ensureLits ls := ⟨_, rfl⟩
  rw [← hb] at g
  -- setting
  obtain ⟨D', k1, k2⟩ := St.updLoop_ok (f := fun d => { d with assumed := true }) ms (s := { u with asm := { u.asm with lits := ms } })
    g.base.v (litOk_pres lk) (fun d => ⟨rfl, rfl⟩) (fun d => rfl)
  have hD' : DataLe u.vars D' := DataLe.upd (f := fun d => { d with assumed := true })
    (P := fun k => ∃ l ∈ ms, u.vars.gfs.map l.var = some k) (fun d => ⟨rfl, rfl, rfl, id⟩) k2
  have hms : ∀ m ∈ ms, ∀ (k : Nat) (d : VarData), u.vars.gfs.map m.var = some k → u.vars.data[k]? = some d → d.mode = .sample := by
    intro m hm k d q1 q2
    obtain ⟨l, hl, j, q3, q4, _⟩ : ∃ l ∈ ls, LitOk u.vars l m := by
      clear k1 k2 hD' f1 hso hc so hb
      induction lk with
      | nil => cases hm
      | @cons l0 m0 ls0 ms0 h1 h2 ih =>
        rcases List.mem_cons.1 hm with rfl | hm
        · exact ⟨l0, by simp, h1⟩
        · obtain ⟨l, hl, q⟩ := ih hm
          exact ⟨l, by simp [hl], q⟩
    rw [q1] at q4
    obtain rfl := Option.some.inj q4
    exact so l hl k d q3 q2
  have b4 := g.base.dataLe hD' (by
    intro j d' q1 q2
    rw [k2 j] at q1
    split at q1
    · rename_i hex
      obtain ⟨m, hm, q3⟩ := hex
      simp only at q1
      cases q4 : u.vars.data[j]? with
      | none => rw [q4] at q1; cases q1
      | some d =>
        rw [q4] at q1; obtain rfl := Option.some.inj q1
        have := hms m hm j d q3 q4
        simp only at q2
        rw [this] at q2; cases q2
    · exact g.base.hidA j d' q1 q2)
  have n4 := g.names.dataLe hD'
  rw [St.setAssumed_eq, k1, ok_bind]
  obtain ⟨L, hL⟩ := St.emit_ok (s := { u with asm := { u.asm with lits := ms }, vars := { u.vars with data := D' } })
    (x := .assumptions ms) (litOk_pres lk)
  refine ⟨_, ids', hL, ?_⟩
  have has : assumeAbs a ls = { b with assumptions := ls.map b.lit } := by unfold assumeAbs; rw [← hb]
  rw [has]
  have hfs : ({ u with asm := { u.asm with lits := ms }, vars := { u.vars with data := D' }, log := L } : St α).sat = t.sat := hus
  refine ⟨⟨b4.v, b4.q, b4.fl, b4.l0, b4.inj, b4.hidA, b4.run, fun k => absurd (hfs.symm.trans k) hts.1⟩, ⟨n4.name, n4.len, n4.lt, ?_, n4.sz⟩, ?_, ?_, ?_, ?_⟩
  · rintro i (hi | ⟨l, hl, rfl⟩)
    · exact g.names.occ _ (.inl hi)
    · exact litOk_name g.names g.base.v lk l hl
  · intro m hm
    obtain ⟨j, hj⟩ := Option.isSome_iff_exists.1 (litOk_pres lk m hm)
    obtain ⟨d, q1, q2⟩ := g.base.v.slive _ _ hj
    refine ⟨j, { d with assumed := true }, hj, ?_, rfl, ?_⟩
    · show D'[j]? = _
      rw [k2 j, if_pos ⟨m, hm, hj⟩]
      simp only
      rw [q1]; rfl
    · show d.mode ≠ .hide
      rw [hms m hm j d hj q1]; simp
  · intro _
    refine ⟨AsmDec.zero huz.1 _, fun τ _ => ?_, ?_⟩
    · show (∀ l ∈ ms, VHolds u.vars ids' τ l) ↔ _
      exact asm_iff g.names lk
    · exact asm_mem g.names lk
  · intro k
    rw [hfs] at k
    refine ⟨?_, huz.1⟩
    show Unsat b.clauses
    rw [g.clauses]; exact (h2'.unsat k).1
  · intro k
    exact absurd (hfs.symm.trans k) hts.2

/-- A state with an answer stays. -/
theorem St.solveLoop_known (e : Env α) {s : St α} (hs : s.sat ≠ .unknown) (n : Nat) :
    St.solveLoop e n s = .error .fuel ∨ St.solveLoop e n s = .ok s := by
  cases n with
  | zero => exact .inl rfl
  | succ n =>
    right
    rw [St.solveLoop]
    unfold St.scheduleStep
    rw [if_pos hs, ok_bind]
    rfl

/-- `solve`. -/
theorem Inv.solve (e : Env α) (n : Nat) {a : Abs} {s : St α} (h : Inv a ids s) :
    s.solve e n = .error .fuel ∨
    ∃ s' b, s.solve e n = .ok (s', b) ∧ Inv a ids s' ∧ s'.sat ≠ .unknown ∧ (b = true ↔ s'.sat = .sat) ∧
      (s.sat = .unknown → b = true → ∀ g, s'.vars.Live g → ∃ v, s'.model[g]? = some (some v)) := by
  have h0 : Inv a ids { s with invoked := true } :=
    ⟨⟨h.b.v, h.b.q, h.b.fl, h.b.l0, h.b.inj, h.b.hidA, h.b.run, h.b.sat⟩, h.n, h.asm, h.as, h.unsat, h.under⟩
  unfold St.solve
  by_cases hs : s.sat = .unknown
  · have ha : After a.clauses a.assumptions ids { s with invoked := true } := by
      have hne : s.sat ≠ .unsat := by rw [hs]; simp
      refine ⟨⟨h.b.v, h.b.q, h.b.fl, h.asm, h.b.l0⟩, fun _ => ⟨h0.sinv hne, (h0.b.run hne).2⟩, ?_, ?_, ?_⟩ <;>
        (intro k; rw [show ({ s with invoked := true } : St α).sat = s.sat from rfl, hs] at k; cases k)
    rcases ha.solveLoop e n with k | ⟨s', k1, k2, k3, k4⟩
    · left; rw [k]; rfl
    · right
      rw [k1, ok_bind]
      refine ⟨s', _, rfl, ?_, k4, decide_eq_true_iff, ?_⟩
      · refine ⟨⟨k2.w.v, k2.w.q, k2.w.fl, k2.w.l0, ?_, ?_, fun hu => ⟨(k2.run hu).1.core, (k2.run hu).2⟩, fun hu => (k2.sat hu).1⟩,
          ⟨?_, ?_, ?_, h.n.occ, ?_⟩, k2.w.asm, fun hu => ⟨(k2.run hu).1.dec, (k2.run hu).1.as⟩, k2.unsat, k2.under⟩
        · intro g g' q1 q2; exact h.b.inj g g' (k3.vars.live g q1) (k3.vars.live g' q2)
        · intro g d' q1 q2
          obtain ⟨d, q3, q4, q5, _⟩ := k3.vars.data g d' q1
          rw [q5]; exact h.b.hidA g d q3 (by rw [← q4]; exact q2)
        · intro u; rw [k3.vars.gfu]; exact h.n.name u
        · rw [k3.vars.gfu]; exact h.n.len
        · intro g hg; exact h.n.lt g (k3.vars.live g hg)
        · obtain ⟨z1, z2, z3⟩ := h.n.sz
          exact ⟨by rw [k3.vars.gfu, k3.vars.len]; exact z1, by rw [k3.vars.slen, k3.vars.len]; exact z2, by rw [k3.vars.len]; exact z3⟩
      · intro _ hb g hg
        exact (k2.sat (decide_eq_true_iff.1 hb)).2 g hg
  · rcases St.solveLoop_known e (s := { s with invoked := true }) hs n with k | k
    · left; rw [k]; rfl
    · right
      rw [k, ok_bind]
      exact ⟨_, _, rfl, h0, hs, decide_eq_true_iff, fun k => absurd k hs⟩

theorem ensure_le {a : Abs} {u : Nat} (h : u ≤ a.len) : a.ensure u = a.create u := by
  unfold Abs.ensure
  rw [Nat.sub_eq_zero_of_le h]; rfl

theorem St.nextUser_free {e : Env α} (he : e.Ok) {s : St α} (hv : VInv s.vars) :
    s.vars.gfu.map (s.nextUser e) = none ∧ s.nextUser e ≤ s.vars.gfu.len := by
  unfold St.nextUser
  cases hp : e.pick 2 s.log.length s.vars.userFree with
  | none =>
    simp only [Option.getD_none, Nat.le_refl, and_true]
    cases hc : s.vars.gfu.map s.vars.gfu.len with
    | none => rfl
    | some g => exact absurd (hv.ulen _ g hc) (by omega)
  | some u =>
    obtain ⟨h1, h2⟩ := (hv.ufree u).1 (he.pick_mem hp)
    exact ⟨h2, Nat.le_of_lt h1⟩

/-- `new_var`. -/
theorem Inv.newVar {e : Env α} (he : e.Ok) {a : Abs} {s : St α} (h : Inv a ids s) :
    ∃ s' u ids', { s with formulaEmpty := false }.newUserVar e = .ok (s', u) ∧ Inv (a.create u) ids' s' ∧
      a.name u = none ∧ u ≤ a.len := by
  have h0 : Inv a ids { s with formulaEmpty := false } :=
    ⟨⟨h.b.v, h.b.q, h.b.fl, h.b.l0, h.b.inj, h.b.hidA, h.b.run, h.b.sat⟩, h.n, h.asm, h.as, h.unsat, h.under⟩
  obtain ⟨k1, k2⟩ := St.nextUser_free he (s := { s with formulaEmpty := false }) h.b.v
  obtain ⟨s', g, ids', e1, e2, _⟩ := St.globalFromUser_ok he h0.b h0.n (St.nextUser e { s with formulaEmpty := false }) false (by simp)
  unfold St.newUserVar
  simp only
  rw [e1, ok_bind]
  have hle : St.nextUser e { s with formulaEmpty := false } ≤ a.len := by rw [h.n.len]; exact k2
  refine ⟨s', _, ids', rfl, ?_, ?_, hle⟩
  · rw [← ensure_le hle]; exact h0.grown e2
  · rw [h.n.name]
    show (s.vars.gfu.map _).map ids = none
    rw [k1]; rfl

end Varisat.Solver
