import Verif.Proof.Solver.Stored
import Verif.Proof.Solver.Sample
/-!
# C39: loading a clause preserves its meaning
-/
namespace Varisat.C39
open Solver Api

variable {α : Type} [LinearOrder α]

/-- What is stored after adding a clause says the same as what was stored before, and the clause. If the
solver reports unsatisfiable, the clause contradicts what was stored. -/
theorem add_clause {s s' : St α} {h : Hist} (x : Exec s h) {e : Env α} (he : e.Ok) {c : List Lit} {r : List Nat}
    (hs : s.sat ≠ .unsat) (hr : s.step e (.addClause c) = .ok (s', r)) :
    (s'.sat ≠ .unsat → ∀ ρ, Stored s' ρ ↔ Stored s ρ ∧ clauseSat ρ c) ∧
    (s'.sat = .unsat → ∀ ρ, ¬ (Stored s ρ ∧ clauseSat ρ c)) := by
  obtain ⟨a, ids, _, i⟩ := x.inv
  have hl : SampleOk s.vars c := by
    rcases i.step he (.addClause c) with ⟨k, _⟩ | ⟨k, _⟩ | ⟨_, _, _, _, _, _, _, k | k⟩
    · rw [k] at hr; cases hr
    · rw [k] at hr; cases hr
    · exact absurd k hs
    · exact k
  unfold St.step at hr
  simp only at hr
  rcases i.loadClause he c hl with ⟨k, _⟩ | ⟨s1, ids', k1, k2⟩
  · exact absurd k hs
  rw [k1, ok_bind] at hr
  cases hr
  have hadd := add_iff (a := a) (c := c) (fun d hd l hl => i.n.occ _ (.inl ⟨d, hd, l, hl, rfl⟩)) (fun u v j => Names.inj k2)
  refine ⟨fun hs' ρ => ?_, fun hs' ρ hc => ?_⟩
  · rw [k2.stored hs', i.stored hs, hadd]
  · rw [i.stored hs, ← hadd] at hc
    obtain ⟨τ, t1, _⟩ := hc
    exact (k2.unsat hs').1 τ t1

/-- The empty clause is reported at once. -/
theorem empty_clause {s s' : St α} {e : Env α} {r : List Nat} (hr : s.step e (.addClause []) = .ok (s', r)) :
    s'.sat = .unsat := by
  unfold St.step St.loadClause at hr
  by_cases hs : s.sat = .unsat
  · simp only at hr
    rw [if_pos hs, ok_bind] at hr
    cases hr; exact hs
  · simp only at hr
    rw [if_neg hs] at hr
    simp only [St.solverFromUserLits, ok_bind, St.loadLits] at hr
    have e1 : dedupLits (sortLits []) = [] := rfl
    rw [e1] at hr
    obtain ⟨L, hL⟩ := St.emit_ok (s := St.fullRestart { s with sat := if s.sat = SatState.sat then .unknown else s.sat, formulaEmpty := false })
      (x := .addClause []) (by simp [stepLits])
    rw [hL] at hr
    cases hr
    rfl

/-- The user literal has the opposite value: recorded, or assigned in level 0. -/
def FixedFalse (s : St α) (l : Lit) : Prop :=
  ∃ g, s.vars.gfu.map l.var = some g ∧
    ((∃ d, s.vars.data[g]? = some d ∧ d.unit = some l.isNeg) ∨
      ∃ m ∈ s.p.trail, s.p.level m.var = 0 ∧ s.vars.gfs.map m.var = some g ∧ m.isNeg = !l.isNeg)

/-- A strictly sorted list of copies of one literal. -/
theorem single {ls : List Lit} {l : Lit} (hs : SSorted ls) (hn : ls ≠ []) (h : ∀ m ∈ ls, m = l) : ls = [l] := by
  cases ls with
  | nil => exact absurd rfl hn
  | cons a t =>
    obtain rfl := h a (by simp)
    cases t with
    | nil => rfl
    | cons b t =>
      obtain rfl := h b (by simp)
      have := (List.pairwise_cons.1 hs).1 b (by simp)
      exact absurd this (Nat.lt_irrefl _)

/-- A clause with a single literal that has the opposite value is reported at once. -/
theorem false_literal {s s' : St α} {h : Hist} (x : Exec s h) {e : Env α} (he : e.Ok) {c : List Lit} {l : Lit} {r : List Nat}
    (hn : c ≠ []) (hc : ∀ m ∈ c, m = l) (hf : FixedFalse s l) (hr : s.step e (.addClause c) = .ok (s', r)) :
    s'.sat = .unsat := by
  obtain ⟨a, ids, _, i⟩ := x.inv
  by_cases hs : s.sat = .unsat
  · unfold St.step St.loadClause at hr
    simp only at hr
    rw [if_pos hs, ok_bind] at hr
    cases hr; exact hs
  have hl : SampleOk s.vars c := by
    rcases i.step he (.addClause c) with ⟨k, _⟩ | ⟨k, _⟩ | ⟨_, _, _, _, _, _, _, k | k⟩
    · rw [k] at hr; cases hr
    · rw [k] at hr; cases hr
    · exact absurd k hs
    · exact k
  unfold St.step St.loadClause at hr
  simp only at hr
  rw [if_neg hs] at hr
  have h1 := i.setSat (t := if s.sat = .sat then .unknown else s.sat) (fe := false)
    (by by_cases hx : s.sat = .sat <;> simp [hx]) (by by_cases hx : s.sat = .sat <;> simp [hx])
    (by by_cases hx : s.sat = .sat <;> simp [hx])
  obtain ⟨h2, hz⟩ := h1.fullRestart
  obtain ⟨t, ht⟩ : ∃ t, t = St.fullRestart { s with sat := if s.sat = .sat then .unknown else s.sat, formulaEmpty := false } := ⟨_, rfl⟩
  have htv : t.vars = s.vars := by rw [ht]; rfl
  have hts : t.sat ≠ .unsat := by
    have : t.sat = if s.sat = .sat then .unknown else s.sat := by rw [ht]; rfl
    rw [this]; by_cases hx : s.sat = .sat <;> simp [hx, hs]
  have hfx : ∀ m ∈ s.p.trail, s.p.level m.var = 0 → m ∈ t.p.trail := by
    intro m hm hlv
    obtain ⟨k, hk⟩ := Pt.At.of_mem hm
    have hok := (i.b.run hs).1.c.tr
    rw [ht]
    unfold St.fullRestart
    cases hd : s.p.decisions[0]? with
    | none =>
      rw [St.backtrack_none (by exact List.getElem?_eq_none_iff.1 hd)]
      exact hm
    | some n =>
      have : (St.backtrack { s with sat := if s.sat = .sat then .unknown else s.sat, formulaEmpty := false, asm := { s.asm with levels := 0 } } 0).p =
          (s.p.backtrack 0).1 := rfl
      show m ∈ (St.backtrack _ 0).p.trail
      rw [this]
      refine Pt.At.mem (k := k) ((Pt.backtrack_at hd).2 ⟨hk, ?_⟩)
      rw [← lvl_le_iff hok.sorted hd, ← hok.level k m hk]
      omega
  rw [← ht] at h2 hz hr
  obtain ⟨u, ms, ids', e1, g, lk, so⟩ := St.solverFromUserLits_ok he c h2.b h2.n (by rw [htv]; exact hl)
  rw [e1, ok_bind] at hr
  simp only at hr
  have hus : u.sat ≠ .unsat := by
    have : u.sat = t.sat := by rw [g.same.eq]
    rw [this]; exact hts
  have hcore := (g.base.run hus).1
  -- all solver literals are the same false literal
  obtain ⟨gg, q1, q2⟩ := hf
  rw [← htv] at q1
  have qu := g.more.gfu _ _ q1
  obtain ⟨m0, hm0, hm1⟩ : ∃ m0 : Lit, (∀ m ∈ ms, m = m0) ∧ (ms ≠ [] → u.p.isFalse m0 = true) := by
    cases hms : ms with
    | nil => exact ⟨l, by simp, fun k => absurd rfl k⟩
    | cons m0 t0 =>
      have key : ∀ m ∈ ms, m.isNeg = l.isNeg ∧ u.vars.gfs.map m.var = some gg := by
        have : ∀ {xs ys : List Lit}, List.Forall₂ (LitOk u.vars) xs ys → (∀ y ∈ xs, y = l) →
            ∀ m ∈ ys, m.isNeg = l.isNeg ∧ u.vars.gfs.map m.var = some gg := by
          intro xs ys hf
          induction hf with
          | nil => intro _ m hm; cases hm
          | @cons a b as bs hab _ ih =>
            intro hall m hm
            rcases List.mem_cons.1 hm with rfl | hm
            · obtain ⟨g', k1, k2, k3⟩ := hab
              obtain rfl := hall a (by simp)
              rw [qu] at k1
              obtain rfl := Option.some.inj k1
              exact ⟨k3, k2⟩
            · exact ih (fun y hy => hall y (by simp [hy])) m hm
        exact this lk hc
      have kin : ∀ v, u.vars.gfs.map v = some gg → v = m0.var := by
        intro v hv
        have k1 := (g.base.v.gs gg v).2 hv
        have k2 := (g.base.v.gs gg m0.var).2 (key m0 (by rw [hms]; simp)).2
        rw [k1] at k2
        exact Option.some.inj k2
      refine ⟨m0, fun m hm => ?_, fun _ => ?_⟩
      · have k := key m (by rw [hms]; exact hm)
        exact Lit.ext_var_neg (kin _ k.2) (k.1.trans (key m0 (by rw [hms]; simp)).1.symm)
      · have km := key m0 (by rw [hms]; simp)
        have hneg : u.p.isTrue m0.neg = true := by
          rcases q2 with ⟨d, d1, d2⟩ | ⟨m, w1, w2, w3, w4⟩
          · obtain ⟨d', d3, d4, _⟩ := h2.b.v.ulive _ _ q1
            rw [← htv] at d1
            rw [d1] at d3
            obtain rfl := Option.some.inj d3
            have := hcore.unit m0.var gg d l.isNeg km.2 (g.more.data gg d d1 d4) d2
            have e2 : Lit.mk' m0.var l.isNeg = m0.neg := Lit.ext_var_neg (by simp) (by simp [km.1])
            rw [e2] at this
            exact this.1
          · have w5 : m ∈ u.p.trail := by rw [g.same.trail]; exact hfx m w1 w2
            have w6 : m.var = m0.var := kin _ (g.more.gfs _ _ (by rw [htv]; exact w3))
            have e2 : m = m0.neg := Lit.ext_var_neg (by simp [w6]) (by simp [w4, km.1])
            rw [← e2]
            exact Pt.isTrue_iff.2 (hcore.c.tr.val m w5)
        rw [← Pt.isTrue_neg]; exact hneg
  have hmsn : ms ≠ [] := by
    intro k
    rw [k] at lk
    cases lk
    exact hn rfl
  have hls : dedupLits (sortLits ms) = [m0] := by
    refine single (dedupLits_ssorted (sortLits_sorted ms)) ?_ (fun m hm => hm0 m ?_)
    · intro k
      obtain ⟨m, hm⟩ := List.exists_mem_of_ne_nil ms hmsn
      have : m ∈ dedupLits (sortLits ms) := by rw [mem_dedupLits, mem_sortLits]; exact hm
      rw [k] at this; cases this
    · rw [mem_dedupLits, mem_sortLits] at hm; exact hm
  unfold St.loadLits at hr
  simp only at hr
  obtain ⟨L, hL⟩ := St.emit_ok (s := u) (x := .addClause [m0]) (by
    intro y hy
    simp only [stepLits, List.mem_singleton] at hy
    subst hy
    obtain ⟨m, hm⟩ := List.exists_mem_of_ne_nil ms hmsn
    have := litOk_pres lk m hm
    rw [hm0 m hm] at this; exact this)
  rw [hls, hL] at hr
  have hfalse := hm1 hmsn
  have hsc : St.scanLits u.p [m0] = ([], [m0], false) := by
    have := Pt.litValue_false.2 hfalse
    simp [St.scanLits, this]
  have htaut : tautScan none [m0] = false := rfl
  simp only [ok_bind, htaut, List.length_singleton, gt_iff_lt, Nat.lt_irrefl, if_false, Bool.false_eq_true] at hr
  have pb : ∀ {β γ : Type} (x : β) (f : β → Except Stop γ), (pure x >>= f) = f x := fun _ _ => rfl
  rw [pb] at hr
  simp only [hsc, Bool.false_eq_true, if_false, List.nil_append, List.isEmpty_nil, St.storeClause, if_true, ok_bind] at hr
  cases hr
  rfl

/-- What is missing for the claim: a longer clause of literals that are all false is stored, and the
contradiction is reported by the next `solve`. -/
theorem not_at_once : ∃ s s' : St Nat, Exec s [(.addClause [⟨1⟩], []), (.addClause [⟨3⟩], []), (.addClause [⟨0⟩, ⟨2⟩], [])] ∧
    s.sat = .unknown ∧ Exec s' [(.addClause [⟨1⟩], []), (.addClause [⟨3⟩], []), (.addClause [⟨0⟩, ⟨2⟩], []), (.solve, [0])] ∧
    s'.sat = .unsat := by
  obtain ⟨s, rs, h1, h2⟩ := Sample.see_exec (f := fun s rs => (rs, s.sat)) (ops := [Sample.cl [-1], Sample.cl [-2], Sample.cl [1, 2]])
    (x := ([[], [], []], .unknown)) (by decide +kernel)
  obtain ⟨s', rs', h3, h4⟩ := Sample.see_exec (f := fun s rs => (rs, s.sat))
    (ops := [Sample.cl [-1], Sample.cl [-2], Sample.cl [1, 2], .solve 9]) (x := ([[], [], [], [0]], .unsat)) (by decide +kernel)
  simp only [Prod.mk.injEq] at h2 h4
  obtain ⟨rfl, h2⟩ := h2
  obtain ⟨rfl, h4⟩ := h4
  exact ⟨s, s', h1, h2, h3, h4⟩

/-! ### Test cases -/

open Sample

/-- The hypotheses of `false_literal` hold for a unit clause that was simplified away by `solve`. -/
example : ∃ s : St Nat, Exec s [(.addClause [⟨1⟩], []), (.solve, [1])] ∧ FixedFalse s ⟨0⟩ ∧ s.sat ≠ .unsat := by
  obtain ⟨s, rs, h1, h2⟩ := see_exec (f := fun s rs => (rs, s.vars.gfu.map 0, s.vars.data[0]?.map VarData.unit, s.sat))
    (ops := [cl [-1], .solve 9]) (x := ([[], [1]], some 0, some (some false), .sat)) (by decide +kernel)
  simp only [Prod.mk.injEq] at h2
  obtain ⟨rfl, h3, h4, h5⟩ := h2
  obtain ⟨d, h6, h7⟩ := Option.map_eq_some_iff.1 h4
  exact ⟨s, h1, ⟨0, h3, .inl ⟨d, h6, h7⟩⟩, by rw [h5]; simp⟩

/-- A clause with a duplicate, a tautology, and a clause satisfied by an earlier unit. -/
example : ∃ s : St Nat, Exec s [(.addClause [⟨0⟩, ⟨0⟩], []), (.addClause [⟨2⟩, ⟨4⟩, ⟨3⟩], []), (.addClause [⟨0⟩, ⟨5⟩], [])] ∧
    s.sat = .unknown ∧ s.p.trail = [⟨0⟩] ∧ s.db.clauses = [] ∧ s.bins.byLit ⟨4⟩ = [] := by
  obtain ⟨s, rs, h1, h2⟩ := see_exec (f := fun s rs => (rs, s.sat, s.p.trail, s.db.clauses, s.bins.byLit ⟨4⟩))
    (ops := [cl [1, 1], cl [2, 3, -2], cl [1, -3]]) (x := ([[], [], []], .unknown, [⟨0⟩], [], [])) (by decide +kernel)
  simp only [Prod.mk.injEq] at h2
  obtain ⟨rfl, h3⟩ := h2
  exact ⟨s, h1, h3⟩

end Varisat.C39
