import Verif.Proof.Solver.SimExec
/-! Without assumptions no failed core of a literal is ever reported. -/
namespace Varisat.Solver
open Api (Hist Abs)

variable {α : Type} [LinearOrder α]

/-- All assumptions ever set are empty. -/
def NoAsm (h : Hist) : Prop := ∀ x ∈ h, ∀ ls, x.1 = .assume ls → ls = []

theorem absRun_noAsm {h : Hist} {a : Abs} (r : Abs.Run {} h a) (hn : NoAsm h) : a.assumptions = [] := by
  generalize h0 : ({} : Abs) = a0 at r
  induction r with
  | nil => subst h0; rfl
  | @snoc b c hs o r _ hst ih =>
    subst h0
    have ih := ih (fun x hx => hn x (by simp [hx]))
    by_cases ho : ∃ ls, o = .assume ls
    · obtain ⟨ls, rfl⟩ := ho
      have := hn (.assume ls, r) (by simp) ls rfl
      subst this
      cases hst; rfl
    · rw [(absStep_keeps hst fun ls h => ho ⟨ls, h⟩).1, ih]

/-- Without assumptions no failed core is ever logged. -/
theorem Exec.notFailed {s : St α} {h : Hist} (x : Exec s h) (hn : NoAsm h) :
    ∀ c hs, ProofStep.failedAssumptions c hs ∉ s.log := by
  induction x with
  | new e => intro c hs h; cases h
  | @call s s' h op r e x he hs ih =>
    have hn' : NoAsm h := fun y hy => hn y (by simp [hy])
    have ih := ih hn'
    obtain ⟨a, ids, hr, hi⟩ := x.inv
    by_cases hop : ∃ n, op = .solve n
    · obtain ⟨n, rfl⟩ := hop
      obtain ⟨⟨t, b⟩, h1, h2⟩ := bind_inv (show (s.solve e n >>= fun q => pure (q.1, [if q.2 then 1 else 0])) = .ok (s', r) from hs)
      cases h2
      rcases hi.solve_core h1 with ⟨g, _⟩ | ⟨_, k1, _⟩
      · exact fun c hs hm => ih c hs (g.fails c hs hm)
      · exact absurd (absRun_noAsm hr hn') k1.asm
    · have hg := St.step_grow hs (fun n hn => hop ⟨n, hn⟩)
      exact fun c hs hm => ih c hs (hg.fails c hs hm)

theorem Exec.noFail {s : St α} {h : Hist} (x : Exec s h) (hn : NoAsm h) :
    ∀ c hs, ProofStep.failedAssumptions c hs ∈ s.log → c = [] := fun c hs h => absurd h (x.notFailed hn c hs)

theorem Exec.fine_of_noAsm {s : St α} {h : Hist} (x : Exec s h) (hn : NoAsm h) : Fine s.log := by
  rintro core hs L1 L2 hL ⟨l, hs', hm⟩
  have := x.noFail hn [l] hs' (by rw [hL]; simp [hm])
  cases this

/-- Without assumptions a formula is never unsatisfiable only under them. -/
theorem Exec.notUnder_of_noAsm {s : St α} {h : Hist} (x : Exec s h) (hn : NoAsm h) : s.sat ≠ .unsatUnder := by
  induction x with
  | new e => intro h; cases h
  | @call s s' h op r e x he hs ih =>
    have hn' : NoAsm h := fun y hy => hn y (by simp [hy])
    have ih := ih hn'
    obtain ⟨a, ids, hr, hi⟩ := x.inv
    by_cases hop : ∃ n, op = .solve n
    · obtain ⟨n, rfl⟩ := hop
      obtain ⟨⟨t, b⟩, h1, h2⟩ := bind_inv (show (s.solve e n >>= fun q => pure (q.1, [if q.2 then 1 else 0])) = .ok (s', r) from hs)
      cases h2
      rcases hi.solve_core h1 with ⟨g, _⟩ | ⟨_, k1, _⟩
      · exact fun h => ih (g.sat h)
      · exact absurd (absRun_noAsm hr hn') k1.asm
    · have hg := St.step_grow hs (fun n hn => hop ⟨n, hn⟩)
      exact fun h => ih (hg.sat h)

end Varisat.Solver
