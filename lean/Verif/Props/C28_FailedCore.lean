import Verif.Proof.Solver.FailedCore
import Verif.Proof.Solver.Sample
/-!
# C28 Failed cores

`failed_core` is a set of assumptions in all reachable states. It is unsatisfiable together with the
formula as long as no earlier failed core had a single literal; without this condition the claim is
false of the code (`C28.wrong_core`): `analyze_assumption_conflict` (`assumptions.rs:172-254`) does not
reset the scratch flag of an assumption that is false without being on the trail.
-/
namespace Varisat.Solver
open Api (Abs Hist Plain added assumed)
variable {α : Type} [LinearOrder α]

/-- A failed core of one literal was reported, and another failed core after it. -/
def C28.AfterSingle (L : List ProofStep) : Prop :=
  ∃ (L1 L2 : List ProofStep) (l : Lit) (hs : List Nat), L = L1 ++ .failedAssumptions [l] hs :: L2 ∧
    ∃ c hs', ProofStep.failedAssumptions c hs' ∈ L2

theorem C28.AfterSingle.mono {L L' : List ProofStep} (h : L <+: L') (k : AfterSingle L) : AfterSingle L' := by
  obtain ⟨L1, L2, l, hs, rfl, c, hs', k⟩ := k
  obtain ⟨M, rfl⟩ := h
  exact ⟨L1, L2 ++ M, l, hs, by simp, c, hs', List.mem_append_left _ k⟩

/-- After any calls without hidden variables, the failed core is a set of assumptions. It is
unsatisfiable together with the formula if no failed core of one literal was reported before it. The
full claim needs no such condition, but is false: see `wrong_core`. -/
theorem C28.failed_core_partial {s : St α} {h : Hist} (x : Exec s h) (hp : Plain h) {core : List Lit}
    (hc : s.failedCore = some core) :
    (∀ l ∈ core, l ∈ assumed h) ∧ (¬ C28.AfterSingle s.log → UnsatUnder (added h) core) := by
  suffices key : s.sat = .unsatUnder → (∀ l ∈ s.asm.userFailedCore, l ∈ assumed h) ∧
      (¬ C28.AfterSingle s.log → UnsatUnder (added h) s.asm.userFailedCore) by
    unfold St.failedCore at hc
    split at hc
    · rename_i hs
      cases hc
      exact key hs
    · rename_i hs
      cases hc
      refine ⟨(fun l hl => by cases hl), fun _ τ hτ _ => ?_⟩
      obtain ⟨a, ids, h1, h2⟩ := x.inv
      exact (h2.unsat hs).1 τ (((PlainRun.of h1 hp).iff τ).2 hτ)
    · cases hc
  clear hc
  induction x with
  | new e => intro k; cases k
  | @call s s' h op r e hx he hs ih =>
    have hp' : Plain h := fun y hy => hp y (by simp [hy])
    obtain ⟨a, ids, h1, h2⟩ := hx.inv
    have hrun := PlainRun.of h1 hp'
    have ih := ih hp'
    intro k
    by_cases hop : ∃ n, op = .solve n
    · obtain ⟨n, rfl⟩ := hop
      obtain ⟨⟨t, b⟩, q1, q2⟩ := bind_inv (show (s.solve e n >>= fun q => pure (q.1, [if q.2 then 1 else 0])) = .ok (s', r) from hs)
      cases q2
      rw [assumed_snoc, added_snoc]
      simp only [Op.call, List.append_nil]
      rcases h2.solve_core q1 with ⟨g, j⟩ | ⟨_, j1, ⟨L, c, hs', j2, j3, _⟩, j4⟩
      · have := j k
        rw [this] at k ⊢
        exact ih k
      · have hlit : ∀ u ∈ t.asm.userFailedCore, a.lit u = u := by
          intro u hu
          have := j1.named u hu
          rw [hrun.p.name] at this
          refine hrun.p.lit ?_
          by_contra hlt
          rw [if_neg hlt] at this
          cases this
        refine ⟨fun l hl => ?_, fun hna => ?_⟩
        · rw [← hrun.assumptions, ← hlit l hl]
          exact j1.sub l hl
        · have hclean : ∀ v, s.tmp v = false := by
            rcases hx.tidy with q | ⟨l, hs1, q⟩
            · exact q
            · exfalso
              obtain ⟨M1, M2, hM⟩ := List.append_of_mem q
              refine hna ⟨M1, M2 ++ L ++ [.failedAssumptions c hs'], l, hs1, ?_, c, hs', by simp⟩
              rw [j2, hM]; simp
          have := (j4 hclean).2.2
          rw [List.map_congr_left hlit, List.map_id'] at this
          intro τ hτ
          exact this τ ((hrun.iff τ).2 hτ)
    · have g := St.step_grow hs (fun n hn => hop ⟨n, hn⟩)
      obtain ⟨i1, i2⟩ := ih (g.sat k)
      have hna : ∀ ls, op ≠ .assume ls := by
        rintro ls rfl
        obtain ⟨t, q1, q2⟩ := bind_inv (show (s.assume e ls >>= fun s => pure (s, ([] : List Nat))) = .ok (s', r) from hs)
        cases q2
        exact (St.assume_grow q1).2 k
      have has : assumed (h ++ [(op.call, r)]) = assumed h := by
        rw [assumed_snoc]
        cases op with
        | assume ls => exact absurd rfl (hna ls)
        | _ => rfl
      rw [g.core, has]
      refine ⟨i1, fun q τ hτ => i2 (fun q' => q (q'.mono g.log)) τ ?_⟩
      intro c hcm
      rw [added_snoc] at hτ
      exact hτ c (List.mem_append_left _ hcm)

/-- The same for all calls, also with hidden variables, right after a search: in terms of the variables
that the user variables stand for. -/
theorem C28.after_search_partial {s s' : St α} {h : Hist} {e : Env α} {n : Nat} (x : Exec s h) (hu : s.sat = .unknown)
    (hs : s.solve e n = .ok (s', false)) :
    ∃ core a, s'.failedCore = some core ∧ Abs.Run {} h a ∧
      (∀ u ∈ core, (a.name u.var).isSome = true ∧ a.lit u ∈ a.assumptions) ∧
      (¬ (∃ l hs, ProofStep.failedAssumptions [l] hs ∈ s.log) → UnsatUnder a.clauses (core.map a.lit)) := by
  obtain ⟨a, ids, h1, h2⟩ := x.inv
  rcases h2.solve e n with k | ⟨s1, b, k1, k2, k3, k4, _⟩
  · rw [k] at hs; cases hs
  rw [hs] at k1
  cases k1
  have hns : s'.sat ≠ .sat := fun q => by simpa using k4.2 q
  by_cases hun : s'.sat = .unsat
  · refine ⟨[], a, by unfold St.failedCore; rw [hun], h1, (fun u hu => by cases hu), fun _ τ hτ _ => ?_⟩
    exact (k2.unsat hun).1 τ hτ
  · have hsat : s'.sat = .unsatUnder := by
      cases hx : s'.sat with
      | unknown => exact absurd hx k3
      | sat => exact absurd hx hns
      | unsat => exact absurd hx hun
      | unsatUnder => rfl
    refine ⟨s'.asm.userFailedCore, a, by unfold St.failedCore; rw [hsat], h1, ?_⟩
    rcases h2.solve_core hs with ⟨g, _⟩ | ⟨_, j1, _, j4⟩
    · have := g.sat hsat
      rw [hu] at this; cases this
    · refine ⟨fun u hu => ⟨j1.named u hu, j1.sub u hu⟩, fun hna => ?_⟩
      rcases x.tidy with q | q
      · exact (j4 q).2.2
      · exact absurd q hna

open Sample in
/-- A concrete case: with `1 → 2`, `2 → 3` and `¬3 ∨ ¬4` the assumptions 5, 1, 4 fail; the core is 4, 1. -/
example : ∃ (s : St Nat) (h : Hist) (core : List Lit), Exec s h ∧ Plain h ∧ s.failedCore = some core ∧
    core.map Lit.toDimacs = [4, 1] ∧ ¬ C28.AfterSingle s.log := by
  obtain ⟨s, rs, h1, h2⟩ := see_exec (f := fun s rs => (rs, s.failedCore, s.log.countP (fun x => match x with | .failedAssumptions _ _ => true | _ => false)))
    (ops := [cl [-1, 2], cl [-2, 3], cl [-3, -4], asm [5, 1, 4], .solve 20])
    (x := ([[], [], [], [], [0]], some [⟨6⟩, ⟨0⟩], 1)) (by decide +kernel)
  simp only [Prod.mk.injEq] at h2
  obtain ⟨rfl, h3, h4⟩ := h2
  refine ⟨s, _, _, h1, ?_, h3, by decide, ?_⟩
  · intro x hx
    simp [cl, asm, Op.call] at hx
    rcases hx with rfl | rfl | rfl | rfl | rfl <;> simp
  · rintro ⟨L1, L2, l, hs, hL, c, hs', hc⟩
    rw [hL] at h4
    have : 0 < L2.countP (fun x => match x with | .failedAssumptions _ _ => true | _ => false) :=
      List.countP_pos_iff.2 ⟨_, hc, rfl⟩
    simp only [List.countP_append, List.countP_cons, if_true] at h4
    omega

open Sample in
/-- The full claim is false: after a failed core of one literal, the assumptions 3, 5, 6, 4 fail because of
`¬3 ∨ ¬4`, but the failed core is 4 alone. The formula has a satisfying assignment with 4. -/
theorem C28.wrong_core : ∃ (s : St Nat) (h : Hist) (core : List Lit), Exec s h ∧ Plain h ∧ s.failedCore = some core ∧
    core.map Lit.toDimacs = [4] ∧ ∃ τ, cnfSat τ (added h) ∧ allHold τ core := by
  obtain ⟨s, rs, h1, h2⟩ := see_exec (f := fun s rs => (rs, s.failedCore))
    (ops := [cl [-1], .solve 9, asm [1], .solve 9, asm [], cl [2], .solve 9, cl [-3,-4], .newVar, .newVar, asm [3,5,6,4], .solve 20])
    (x := ([[], [1], [], [0], [], [], [1], [], [4], [5], [], [0]], some [⟨6⟩])) (by decide +kernel)
  simp only [Prod.mk.injEq] at h2
  obtain ⟨rfl, h3⟩ := h2
  refine ⟨s, _, _, h1, ?_, h3, by decide, fun v => decide (v = 1 ∨ v = 3), ?_, ?_⟩
  · intro x hx
    simp [cl, asm, Op.call] at hx
    rcases hx with rfl | rfl | rfl | rfl | rfl | rfl | rfl | rfl | rfl | rfl | rfl | rfl <;> simp
  · intro c hc
    simp [added, cl, asm, Op.call] at hc
    rcases hc with rfl | rfl | rfl
    · exact ⟨Lit.fromDimacs (-1), by simp, by decide⟩
    · exact ⟨Lit.fromDimacs 2, by simp, by decide⟩
    · exact ⟨Lit.fromDimacs (-3), by simp, by decide⟩
  · intro l hl
    simp only [List.mem_singleton] at hl
    subst hl
    decide

end Varisat.Solver
