import Verif.Proof.Solver.Reach
import Verif.Spec.Search
/-!
# Entailment from the clauses of a solver state
-/
namespace Varisat.Solver

variable {α : Type} [LinearOrder α] {pres : Nat → Prop} {C : Cl} {p : Pt}

theorem dbSat_iff {s : St α} (hp : s.p.Ok) (ν : Asg) : DbSat s ν ↔ (cls s.bins.byLit s.db).Mod s.p ν := by
  constructor
  · rintro ⟨h1, h2⟩
    refine ⟨⟨fun l m hm hl => ?_, fun c hc => h1 _ (.long c hc.1 hc.2)⟩, fun l hl => h2 l ((fixed_iff hp).2 hl)⟩
    have := h1 _ (.bin l m hm)
    rw [clauseSat_cons, clauseSat_singleton, Lit.holds_neg] at this
    exact this.resolve_left (fun h => h hl)
  · rintro ⟨h1, h2⟩
    refine ⟨fun c hc => ?_, fun l hl => h2 l ((fixed_iff hp).1 hl)⟩
    cases hc with
    | bin l m hm =>
      rw [clauseSat_cons, clauseSat_singleton, Lit.holds_neg]
      by_cases hl : l.holds ν
      · exact .inr (h1.bin l m hm hl)
      · exact .inl hl
    | long c h3 h4 => exact h1.long c ⟨h3, h4⟩

/-- If the assignments without reason hold, all do. -/
theorem implied_at (hc : CInv pres C p) {as : Asg} (hs : C.Sat as)
    (hu : ∀ k l, p.At k l → p.reason l.var = .unit → l.holds as) : ∀ k l, p.At k l → l.holds as := by
  intro k
  induction k using Nat.strongRecOn with
  | ind k ih =>
    intro l hk
    by_cases hr : p.reason l.var = .unit
    · exact hu k l hk hr
    · obtain ⟨h1, h2, _⟩ := reason_sat hc hs hk hr
      rcases h2 with h2 | ⟨m, hm, hms⟩
      · exact h2
      · obtain ⟨j, hj, hja⟩ := h1 m hm
        have := ih j hj _ hja
        rw [Lit.holds_neg] at this
        exact absurd hms this

theorem Ext.trail_prefix {p q : Pt} (h : Ext p q) : p.trail <+: q.trail := by
  induction h with
  | refl => exact List.prefix_refl _
  | step _ _ _ ih => exact ih.trans (List.prefix_append _ _)

end Varisat.Solver
