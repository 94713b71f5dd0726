import Verif.Proof.Solver.Plain
import Verif.Proof.Solver.Sample
/-!
# C27: UNSAT answers are correct
-/
namespace Varisat.C27
open Solver Api

variable {α : Type} [LinearOrder α]

/-- The result of `solve` and the specification. -/
theorem solve_step {s s' : St α} {h : Hist} (x : Exec s h) {e : Env α} (he : e.Ok) {n : Nat} {r : List Nat}
    (hr : s.step e (.solve n) = .ok (s', r)) :
    ∃ a, Abs.Run {} h a ∧ ((r = [1] ∧ ∃ τ, cnfSat τ a.clauses ∧ allHold τ a.assumptions) ∨
      (r = [0] ∧ UnsatUnder a.clauses a.assumptions)) := by
  obtain ⟨a, ids, h1, h2⟩ := x.inv
  rcases h2.step he (.solve n) with ⟨k, _⟩ | ⟨k, _⟩ | ⟨s1, r1, b, ids', k1, k2, k3, _⟩
  · rw [k] at hr; cases hr
  · rw [k] at hr; cases hr
  · rw [k1] at hr
    cases hr
    refine ⟨a, h1, ?_⟩
    cases k2 with
    | sat k => exact .inl ⟨rfl, k⟩
    | unsat k => exact .inr ⟨rfl, k⟩

/-- When `solve` returns false, the clauses added so far together with the current assumptions are
unsatisfiable. -/
theorem solve_false {s s' : St α} {h : Hist} (x : Exec s h) (hp : Plain h) {e : Env α} (he : e.Ok) {n : Nat}
    (hr : s.step e (.solve n) = .ok (s', [0])) : UnsatUnder (added h) (assumed h) := by
  obtain ⟨a, h1, ⟨h2, _⟩ | ⟨_, h2⟩⟩ := solve_step x he hr
  · cases h2
  · have hr := PlainRun.of h1 hp
    intro τ k1 k2
    exact h2 τ ((hr.iff τ).2 k1) (by rw [hr.assumptions]; exact k2)

/-- When `solve` returns false without assumptions, the clauses added so far are unsatisfiable. -/
theorem solve_false_no_assumptions {s s' : St α} {h : Hist} (x : Exec s h) (hp : Plain h) {e : Env α} (he : e.Ok)
    {n : Nat} (ha : assumed h = []) (hr : s.step e (.solve n) = .ok (s', [0])) : Unsat (added h) := by
  intro τ hτ
  refine solve_false x hp he hr τ hτ ?_
  rw [ha]; intro l hl; cases hl

/-- With hidden and observed variables: the clauses in the variables the user variables stood for. -/
theorem solve_false_named {s s' : St α} {h : Hist} (x : Exec s h) {e : Env α} (he : e.Ok) {n : Nat}
    (hr : s.step e (.solve n) = .ok (s', [0])) :
    ∃ a, Abs.Run {} h a ∧ UnsatUnder a.clauses a.assumptions := by
  obtain ⟨a, h1, ⟨h2, _⟩ | ⟨_, h2⟩⟩ := solve_step x he hr
  · cases h2
  · exact ⟨a, h1, h2⟩

/-- After `solve` returned false there is no model and there is a failed core; after it returned true
there is no failed core. -/
theorem answers {s s' : St α} {h : Hist} (x : Exec s h) {e : Env α} {n : Nat} {r : List Nat}
    (hr : s.step e (.solve n) = .ok (s', r)) :
    (r = [0] ∧ s'.modelLits = some none ∧ s'.failedCore ≠ none) ∨ (r = [1] ∧ s'.modelLits ≠ some none ∧ s'.failedCore = none) := by
  obtain ⟨a, ids, h1, h2⟩ := x.inv
  unfold St.step at hr
  simp only at hr
  rcases h2.solve e n with k | ⟨s1, b, k1, k2, k3, k4, k5⟩
  · rw [k] at hr; cases hr
  rw [k1, ok_bind] at hr
  injection hr with hr
  obtain rfl : s1 = s' := congrArg Prod.fst hr
  have hb : [if b = true then 1 else 0] = r := congrArg Prod.snd hr
  subst hb
  cases b with
  | false =>
    left
    have hs : s1.sat ≠ .sat := fun q => absurd (k4.2 q) (by simp)
    refine ⟨rfl, St.modelLits_none.2 hs, ?_⟩
    unfold St.failedCore
    cases q : s1.sat with
    | unknown => exact absurd q k3
    | sat => exact absurd q hs
    | unsat => simp
    | unsatUnder => simp
  | true =>
    right
    have hs := k4.1 rfl
    refine ⟨rfl, fun q => St.modelLits_none.1 q hs, ?_⟩
    unfold St.failedCore
    rw [hs]

/-! ### Test cases -/

open Sample

/-- All eight clauses over three variables, added in two parts with a satisfiable call in between. -/
example : ∃ (s : St Nat) (h : Hist), Exec s h ∧ Plain h ∧ h.getLast? = some (Call.solve, [0]) ∧
    (added h).length = 8 ∧ assumed h = [] := by
  obtain ⟨s, rs, h1, h2⟩ := see_exec (f := fun _ rs => rs)
    (ops := [cl [1, 2, 3], cl [1, 2, -3], cl [1, -2, 3], cl [1, -2, -3], .solve 50, cl [-1, 2, 3], cl [-1, 2, -3],
      cl [-1, -2, 3], cl [-1, -2, -3], .solve 50]) (x := [[], [], [], [], [1], [], [], [], [], [0]]) (by decide +kernel)
  subst h2
  refine ⟨s, _, h1, ?_, rfl, rfl, rfl⟩
  intro y hy
  simp [cl, Op.call] at hy
  rcases hy with q | q | q | q | q | q | q | q | q | q <;> rw [q] <;> exact ⟨fun u k => (by cases k), fun k => (by cases k)⟩

/-- Unsatisfiable only under the assumption. -/
example : ∃ (s : St Nat) (h : Hist), Exec s h ∧ h = [(.addClause [⟨0⟩, ⟨2⟩], []), (.addClause [⟨0⟩, ⟨3⟩], []), (.assume [⟨1⟩], []),
    (.solve, [0])] ∧ s.failedCore = some [⟨1⟩] := by
  obtain ⟨s, rs, h1, h2⟩ := see_exec (f := fun s rs => (rs, s.failedCore))
    (ops := [cl [1, 2], cl [1, -2], asm [-1], .solve 50]) (x := ([[], [], [], [0]], some [⟨1⟩])) (by decide +kernel)
  obtain ⟨rfl, h3⟩ := Prod.mk.injEq _ _ _ _ ▸ h2
  exact ⟨s, _, h1, rfl, h3⟩

end Varisat.C27
