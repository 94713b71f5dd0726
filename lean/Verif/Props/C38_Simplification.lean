import Verif.Proof.Solver.Entail
import Verif.Proof.Solver.SampleSearch
import Mathlib.Tactic.ByContra
/-!
# C38 Root-level simplification preserves the formula
-/
namespace Varisat.Solver
variable {α : Type} [LinearOrder α]

/-- Models only speak about existing variables. -/
theorem Models.congr {s : St α} (hv : VInv s.vars) {σ σ' : Asg} (h : Models s σ)
    (he : ∀ g, s.vars.Live g → σ g = σ' g) : Models s σ' := by
  obtain ⟨⟨ν, h1, h2⟩, h3⟩ := h
  refine ⟨⟨ν, fun v g hg => ?_, h2⟩, fun g d b hd hdel hu => ?_⟩
  · rw [← he g (hv.slive v g hg)]; exact h1 v g hg
  · rw [← he g ⟨d, hd, hdel⟩]; exact h3 g d b hd hdel hu

/-- After propagation without decisions, simplification (`prove_units`, `unit_simplify`) does not panic.
Every assignment that satisfies what was stored satisfies what is stored afterwards. Conversely every
assignment that satisfies what is stored afterwards can be changed, in variables that are not there any
more only, to one that satisfies what was stored. -/
theorem C38.models {s : St α} (h : Search s .propagated) (hd : s.p.decisions = []) :
    ∃ s1 b s', s.proveUnits = .ok (s1, b) ∧ (if b then s1.unitSimplify else .ok s1) = .ok s' ∧
      (∀ σ, Models s σ → Models s' σ) ∧
      (∀ σ', Models s' σ' → ∃ σ, Models s σ ∧
        ∀ (g : Nat) (d : VarData), s'.vars.data[g]? = some d → d.deleted = false → σ g = σ' g) ∧
      (∀ ρ, Stored s ρ ↔ Stored s' ρ) := by
  obtain ⟨F, A, ids, h1, ⟨h2, h3⟩, _⟩ := h.inv
  obtain ⟨s1, b, s', p1, p2, p3, p4, p5, p6, p7, _⟩ := h1.simplify h2 h3 hd
  have f1 : ∀ σ, Models s σ → Models s' σ := by
    intro σ hσ
    obtain ⟨τ, t1, t2⟩ := h1.core.s2 σ ((h1.core.models σ).1 hσ)
    have k := p3.core.s1 τ t1
    have : Models s' (fun g => τ (ids g)) := (p3.core.models _).2 ⟨irrs_sat k.cl, k.root, k.unit⟩
    exact this.congr p3.v (fun g hg => t2 g (p7.live g hg))
  have f2 : ∀ σ', Models s' σ' → ∃ σ, Models s σ ∧ ∀ g, s'.vars.Live g → σ g = σ' g := by
    intro σ' hσ
    obtain ⟨τ, t1, t2⟩ := p3.core.s2 σ' ((p3.core.models σ').1 hσ)
    have k := h1.core.s1 τ t1
    exact ⟨fun g => τ (ids g), (h1.core.models _).2 ⟨irrs_sat k.cl, k.root, k.unit⟩, t2⟩
  refine ⟨s1, b, s', p1, p2, f1, fun σ' hσ => ?_, fun ρ => ⟨?_, ?_⟩⟩
  · obtain ⟨σ, k1, k2⟩ := f2 σ' hσ
    exact ⟨σ, k1, fun g d h1 h2 => k2 g ⟨d, h1, h2⟩⟩
  · rintro ⟨σ, k1, k2⟩
    exact ⟨σ, f1 σ k1, fun u g hg => k2 u g (by rw [← p7.gfu]; exact hg)⟩
  · rintro ⟨σ', k1, k2⟩
    obtain ⟨σ, k3, k4⟩ := f2 σ' k1
    refine ⟨σ, k3, fun u g hg => ?_⟩
    have hg' : s'.vars.gfu.map u = some g := by rw [p7.gfu]; exact hg
    obtain ⟨d, d1, d2, _⟩ := p3.v.ulive u g hg'
    rw [k4 g ⟨d, d1, d2⟩]
    exact k2 u g hg'

/-- After simplification no clause, binary or long, contains an assigned variable, and all assignments
are recorded as fixed for good. -/
theorem C38.clean {s s1 s' : St α} {b : Bool} (h : Search s .propagated) (hd : s.p.decisions = [])
    (hp : s.proveUnits = .ok (s1, b)) (hs : (if b then s1.unitSimplify else .ok s1) = .ok s') :
    s'.p.trail = [] ∧ ∀ c, InDb s' c → ∀ l ∈ c, s'.p.value l.var = none := by
  obtain ⟨F, A, ids, h1, ⟨h2, h3⟩, _⟩ := h.inv
  obtain ⟨u1, b, u2, p1, p2, p3, p4, p5, p6, p7, _⟩ := h1.simplify h2 h3 hd
  rw [hp] at p1; cases p1
  rw [hs] at p2; cases p2
  have hatt : ∀ v, s'.p.Att v → s'.p.value v = none := by
    intro v hv
    by_contra hn
    obtain ⟨l, hl, _⟩ := hv hn
    rw [p4] at hl; cases hl
  refine ⟨p4, fun c hc l hl => hatt _ ?_⟩
  cases hc with
  | bin x y hxy =>
    simp only [List.mem_cons, List.not_mem_nil, or_false] at hl
    rcases hl with rfl | rfl
    · exact (p3.core.c.binVars y.neg _ (p3.core.c.binSym x y hxy)).2
    · exact (p3.core.c.binVars x _ hxy).2
  | long c k1 k2 => exact (p3.core.c.vars c ⟨k1, k2⟩ l hl).2

/-- With the unit clause `1`, the clause `¬1 ∨ 2 ∨ 3` becomes binary, `1 ∨ 4` is removed and so is the
solver variable of `1`. -/
example : ∃ s s1 s' : St Nat, ∃ b, Search s .propagated ∧ s.p.decisions = [] ∧ s.proveUnits = .ok (s1, b) ∧
    (if b then s1.unitSimplify else .ok s1) = .ok s' ∧
    s.db.clauses = [0] ∧ s.bins.count = 1 ∧ (s.vars.gfs.map 0).isSome = true ∧
    s'.db.clauses = [] ∧ s'.bins.count = 1 ∧ Lit.fromDimacs 3 ∈ s'.bins.byLit (Lit.fromDimacs (-2)) ∧
    s'.vars.gfs.map 0 = none := by
  obtain ⟨s, ph, h1, h2⟩ := Sample.peek_search
    (f := fun s ph => match ph with
      | .propagated =>
        match s.proveUnits with
        | .ok (s1, b) =>
          match (if b then s1.unitSimplify else .ok s1) with
          | .ok s' => some (decide (s.p.decisions = [] ∧ s.db.clauses = [0] ∧ s.bins.count = 1 ∧
              (s.vars.gfs.map 0).isSome = true ∧ s'.db.clauses = [] ∧ s'.bins.count = 1 ∧
              Lit.fromDimacs 3 ∈ s'.bins.byLit (Lit.fromDimacs (-2)) ∧ s'.vars.gfs.map 0 = none))
          | .error _ => none
        | .error _ => none
      | _ => none)
    (ops := [Sample.cl [-1, 2, 3], Sample.cl [1, 4], Sample.cl [1]])
    (ms := [.propagate])
    (x := some true) (by decide +kernel)
  cases ph with
  | propagated =>
    simp only at h2
    split at h2
    · rename_i s1 b hp
      split at h2
      · rename_i s' hs
        have h3 := of_decide_eq_true (Option.some.inj h2)
        exact ⟨s, s1, s', b, h1, h3.1, hp, hs, h3.2⟩
      · cases h2
    · cases h2
  | _ => cases h2

end Varisat.Solver
