import Verif.Proof.Solver.SimLoad
/-!
# `add_clause` and `assume`, as the checker sees them
-/
namespace Varisat.Solver

open Api (Abs)
open Checker (View LitsOk SamplingMode hashOf)

variable {α : Type} [LinearOrder α]
variable {a : Option Abs} {x : Vars} {p q : Pt} {V : View} {l : Lit} {s s' : St α} {e : Env α}
variable {F : List (List Lit)} {A : List Lit} {ids : Nat → Nat}

/-- Parts of the state the checker does not see. -/
theorem Tracked.change {t : St α} (h : Tracked a s) (h1 : t.vars = s.vars) (h2 : t.log = s.log) (h3 : t.bins = s.bins)
    (h4 : t.db = s.db) (h5 : t.asm.lits = s.asm.lits) (h6 : s.sat = .unsat ↔ t.sat = .unsat) (h7 : R0 t.p)
    (h8 : ∀ l, Known t.p l ↔ Known s.p l) : Tracked a t := by
  obtain ⟨V, k1, k2⟩ := h.view
  refine ⟨by rw [h1]; exact h.v, h7, V, by rw [h2]; exact k1, ⟨?_, ?_, k2.unsat.trans h6, ?_⟩⟩
  · rw [h1, h3, h4]; exact k2.b.point (fun l _ => h8 l) h.v
  · rw [h1, h3, h4]; exact k2.use
  · rw [h1, h5]; exact k2.asm

theorem Known.backtrack (hp : p.Ok) {level n : Nat} (hd : p.decisions[level]? = some n) : Known (p.backtrack level).1 l ↔ Known p l := by
  unfold Known
  rw [Pt.backtrack_root hp hd, Pt.backtrack_reason hd]

theorem R0.backtrack (h : R0 p) (hp : p.Ok) {level n : Nat} (hd : p.decisions[level]? = some n) : R0 (p.backtrack level).1 := by
  intro l hl
  rw [Pt.backtrack_reason hd]
  exact h l ((Pt.backtrack_root hp hd).1 hl)

theorem Tracked.backtrack (h : Tracked a s) {level : Nat} (hp : ∀ n, s.p.decisions[level]? = some n → s.p.Ok) :
    Tracked a (s.backtrack level) := by
  cases hd : s.p.decisions[level]? with
  | none => rw [St.backtrack_none (List.getElem?_eq_none_iff.1 hd)]; exact h
  | some n => exact h.change rfl rfl rfl rfl rfl Iff.rfl (h.r.backtrack (hp n hd) hd) (fun l => Known.backtrack (hp n hd) hd)

theorem Tracked.fullRestart {b : Abs} (h : Tracked a s) (hi : Inv b ids s) : Tracked a s.fullRestart := by
  unfold St.fullRestart
  refine Tracked.backtrack (s := { s with asm := { s.asm with levels := 0 } }) (h.change rfl rfl rfl rfl rfl Iff.rfl h.r fun _ => Iff.rfl) ?_
  intro n hn
  by_cases hs : s.sat = .unsat
  · have h2 := (hi.unsat hs).2
    change s.p.decisions[0]? = some n at hn
    rw [h2] at hn; cases hn
  · exact (hi.b.run hs).1.c.tr

theorem litOk_mem {x : Vars} {ls ms : List Lit} (lk : List.Forall₂ (LitOk x) ls ms) : ∀ m ∈ ms, ∃ l ∈ ls, LitOk x l m := by
  induction lk with
  | nil => intro m hm; cases hm
  | @cons l0 m0 ls0 ms0 h1 h2 ih =>
    intro m hm
    rcases List.mem_cons.1 hm with rfl | hm
    · exact ⟨l0, by simp, h1⟩
    · obtain ⟨l, hl, q⟩ := ih m hm
      exact ⟨l, by simp [hl], q⟩

/-- `add_clause`. -/
theorem Tracked.loadClause (he : e.Ok) {b : Abs} (h : Tracked a s) (hi : Inv b ids s) {c : List Lit} (hc : SampleOk s.vars c)
    (ho : s.loadClause e c = .ok s') : Tracked a s' := by
  unfold St.loadClause at ho
  by_cases hs : s.sat = .unsat
  · rw [if_pos hs] at ho; cases ho; exact h
  rw [if_neg hs] at ho
  simp only at ho
  have h1 := hi.setSat (t := if s.sat = .sat then .unknown else s.sat) (fe := false)
    (by by_cases hx : s.sat = .sat <;> simp [hx]) (by by_cases hx : s.sat = .sat <;> simp [hx])
    (by by_cases hx : s.sat = .sat <;> simp [hx])
  obtain ⟨h2, hz⟩ := h1.fullRestart
  have t1 : Tracked a { s with sat := if s.sat = SatState.sat then SatState.unknown else s.sat, formulaEmpty := false } :=
    h.change rfl rfl rfl rfl rfl (by by_cases hx : s.sat = .sat <;> simp [hx, hs]) h.r fun _ => Iff.rfl
  have t2 := t1.fullRestart h1
  obtain ⟨t, ht⟩ : ∃ t, t = St.fullRestart { s with sat := if s.sat = .sat then .unknown else s.sat, formulaEmpty := false } := ⟨_, rfl⟩
  have htv : t.vars = s.vars := by rw [ht]; rfl
  have hts : t.sat = if s.sat = .sat then .unknown else s.sat := by rw [ht]; rfl
  rw [← ht] at h2 hz ho t2
  have hts1 : t.sat ≠ .unsat := by rw [hts]; by_cases hx : s.sat = .sat <;> simp [hx, hs]
  obtain ⟨u, ms, ids', e1, g, lk, so⟩ := St.solverFromUserLits_ok he c h2.b h2.n (by rw [htv]; exact hc)
  rw [e1, ok_bind] at ho
  simp only at ho
  have t3 := Tracked.solverFromUserLits he t2 e1
  have hus : u.sat = t.sat := by rw [g.same.eq]
  have huz : Zero u.p := ⟨g.same.decisions.trans hz.1, g.same.qhead.trans hz.2⟩
  refine t3.loadLits g.base (by rw [hus]; exact hts1) huz (litOk_pres lk) ?_ ho
  intro m hm k d q1 q2
  obtain ⟨l, hl, j, q3, q4, _⟩ : ∃ l ∈ c, LitOk u.vars l m := litOk_mem lk m hm
  rw [q1] at q4
  obtain rfl := Option.some.inj q4
  exact so l hl k d q3 q2

theorem Tracked.forget (h : Tracked a s) : Tracked none s := by
  obtain ⟨V, k1, k2⟩ := h.view
  exact ⟨h.v, h.r, V, k1, ⟨⟨k2.b.v, k2.b.u, k2.b.c, fun _ hb => by cases hb⟩, k2.use, k2.unsat, k2.asm⟩⟩

/-- `assume`. -/
theorem Tracked.assume (he : e.Ok) {b : Abs} (h : Tracked a s) (hi : Inv b ids s) {ls : List Lit} (hc : SampleOk s.vars ls)
    (ho : s.assume e ls = .ok s') : Tracked (some (assumeAbs b ls)) s' := by
  unfold St.assume at ho
  simp only at ho
  obtain ⟨h1, hz⟩ := hi.fullRestart
  have h2 := h1.setSat (t := if s.fullRestart.sat = SatState.unsat then SatState.unsat else SatState.unknown) (fe := s.fullRestart.formulaEmpty)
    (by by_cases hx : s.fullRestart.sat = .unsat <;> simp [hx]) (by by_cases hx : s.fullRestart.sat = .unsat <;> simp [hx])
    (by by_cases hx : s.fullRestart.sat = .unsat <;> simp [hx])
  have t1 := (h.fullRestart hi).forget
  obtain ⟨t, ht⟩ : ∃ t : St α, t = { s.fullRestart with sat := if s.fullRestart.sat = SatState.unsat then SatState.unsat else SatState.unknown } := ⟨_, rfl⟩
  have t2 : Tracked none t := by
    rw [ht]
    exact t1.change rfl rfl rfl rfl rfl (by by_cases hx : s.fullRestart.sat = .unsat <;> simp [hx]) t1.r fun _ => Iff.rfl
  have htv : t.vars = s.vars := by rw [ht]; rfl
  have h2' : Inv b ids t := by rw [ht]; exact h2
  have hta : s.fullRestart.asm.lits = t.asm.lits := by rw [ht]
  rw [← ht, hta] at ho
  clear ht h2 h1 hz t1
  -- clearing
  obtain ⟨D, e1, e2⟩ := St.updLoop_ok (f := fun d => { d with assumed := false }) t.asm.lits h2'.b.v h2'.asm.pres
    (fun d => ⟨rfl, rfl⟩) (fun d => rfl)
  have hD : DataLe t.vars D := DataLe.upd (f := fun d => { d with assumed := false })
    (P := fun k => ∃ l ∈ t.asm.lits, t.vars.gfs.map l.var = some k) (fun d => ⟨rfl, rfl, rfl, id⟩) e2
  have b3 := h2'.b.dataLe hD (by
    intro g d' k1 k2
    rw [e2 g] at k1
    split at k1
    · cases k3 : t.vars.data[g]? with
      | none => rw [k3] at k1; cases k1
      | some d => rw [k3] at k1; obtain rfl := Option.some.inj k1; rfl
    · exact h2'.b.hidA g d' k1 k2)
  have n3 := h2'.n.dataLe hD
  have t3 : Tracked none { t with vars := { t.vars with data := D } } := by
    obtain ⟨V, k1, k2⟩ := t2.view
    exact ⟨t2.v.dataLe hD, t2.r, V, k1, ⟨k2.b.dataLe hD (fun _ hb => by cases hb), k2.use.mono fun _ h => h, k2.unsat, k2.asm⟩⟩
  rw [St.setAssumed_eq, e1, ok_bind] at ho
  have hso : SampleOk { t.vars with data := D } ls := by
    intro l hl g d k1 k2
    obtain ⟨d0, k3, k4, k5, _⟩ := hD.some_ g d k2
    rw [k5]
    exact hc l hl g d0 (by rw [← htv]; exact k1) (by rw [← htv]; exact k3)
  -- creating
  obtain ⟨u, ms, ids', f1, g, lk, so⟩ := St.solverFromUserLits_ok he ls b3 n3 hso
  rw [f1, ok_bind] at ho
  simp only at ho
  have t4 := Tracked.solverFromUserLits he t3 f1
  -- setting
  obtain ⟨D', k1, k2⟩ := St.updLoop_ok (f := fun d => { d with assumed := true }) ms (s := { u with asm := { u.asm with lits := ms } })
    g.base.v (litOk_pres lk) (fun d => ⟨rfl, rfl⟩) (fun d => rfl)
  have hD' : DataLe u.vars D' := DataLe.upd (f := fun d => { d with assumed := true })
    (P := fun k => ∃ l ∈ ms, u.vars.gfs.map l.var = some k) (fun d => ⟨rfl, rfl, rfl, id⟩) k2
  have hms : ∀ m ∈ ms, ∀ (k : Nat) (d : VarData), u.vars.gfs.map m.var = some k → u.vars.data[k]? = some d → d.mode = .sample := by
    intro m hm k d q1 q2
    obtain ⟨l, hl, j, q3, q4, _⟩ := litOk_mem lk m hm
    rw [q1] at q4
    obtain rfl := Option.some.inj q4
    exact so l hl k d q3 q2
  have n4 := g.names.dataLe hD'
  rw [St.setAssumed_eq, k1, ok_bind] at ho
  rw [St.emit_glit (s := { u with asm := { u.asm with lits := ms }, vars := { u.vars with data := D' } })
    (st := .assumptions ms) (litOk_pres lk)] at ho
  cases ho
  obtain ⟨V, v1, v2⟩ := t4.view
  have hvD : VInv { u.vars with data := D' } := t4.v.dataLe hD'
  have b5 := v2.b.dataLe hD' (fun _ hb => by cases hb)
  have hdata : ∀ m ∈ ms, ∀ k, u.vars.gfs.map m.var = some k → ∃ d, D'[k]? = some d ∧ d.assumed = true ∧ d.mode = .sample ∧ d.deleted = false := by
    intro m hm k hk
    obtain ⟨d, q1, q2⟩ := t4.v.slive _ _ hk
    refine ⟨{ d with assumed := true }, ?_, rfl, hms m hm k d hk q1, q2⟩
    rw [k2 k, if_pos ⟨m, hm, hk⟩]
    simp only
    rw [q1]; rfl
  refine ⟨hvD, t4.r, _, v1.snoc (st := gstep { u.vars with data := D' } (.assumptions ms)) ?_
    (b5.v.lits hvD (litOk_pres lk)), ⟨?_, v2.use.mono fun _ h => h, v2.unsat, ?_⟩⟩
  · intro k hk
    obtain ⟨m, hm, rfl⟩ := List.mem_map.1 hk
    obtain ⟨j, hj⟩ := Option.isSome_iff_exists.1 (litOk_pres lk m hm)
    obtain ⟨d, q1, _, q3, q4⟩ := hdata m hm j hj
    rw [glit_var (x := { u.vars with data := D' }) hj, b5.v.mode, gmode_live (x := { u.vars with data := D' }) q1 q4, q3]
    rfl
  · refine ⟨⟨b5.v.names, b5.v.user, b5.v.used, b5.v.mode, b5.v.nvars, b5.v.ulen, b5.v.slen⟩, b5.u, b5.c.view rfl, ?_⟩
    intro c hcc k hk
    obtain rfl := (Option.some.inj hcc)
    obtain ⟨m, hm, rfl⟩ := mem_canon.1 hk
    obtain ⟨l, hl, j, q3, q4, q5⟩ := litOk_mem lk m hm
    obtain ⟨d, r1, r2, _, _⟩ := hdata m hm j q4
    have hj : (glit { u.vars with data := D' } m).var = j := glit_var (x := { u.vars with data := D' }) q4
    rw [hj]
    refine ⟨l.var, d, ids' j, q3, r1, r2, ?_, ?_⟩
    · show (b.ensureLits ls).name l.var = _
      rw [g.names.name, q3]; rfl
    · rw [glit_isNeg]
      exact asm_mem g.names lk m hm j q4
  · intro m hm
    exact ⟨litOk_pres lk m hm, mem_canon.2 ⟨m, hm, rfl⟩⟩

end Varisat.Solver
