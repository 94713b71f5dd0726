import Verif.Props.C27_UnsatAnswers
/-!
# C45: incremental solving
-/
namespace Varisat.C45
open Solver Api

variable {α : Type} [LinearOrder α]

/-- Whatever calls were made and whatever they returned, the specification allows it. -/
theorem refinement {s : St α} {h : Hist} (x : Exec s h) : ∃ a, Abs.Run {} h a := by
  obtain ⟨a, _, h1, _⟩ := x.inv
  exact ⟨a, h1⟩

/-- Every answer in a history of calls is correct for the clauses added and the assumptions set before
it. -/
theorem every_answer {s : St α} {h1 h2 : Hist} {r : List Nat} (x : Exec s (h1 ++ (.solve, r) :: h2)) (hp : Plain h1) :
    (r = [1] ∧ ∃ τ, cnfSat τ (added h1) ∧ allHold τ (assumed h1)) ∨ (r = [0] ∧ UnsatUnder (added h1) (assumed h1)) := by
  obtain ⟨a, ra⟩ := refinement x
  rw [show h1 ++ (Call.solve, r) :: h2 = (h1 ++ [(Call.solve, r)]) ++ h2 by simp] at ra
  obtain ⟨b, rb⟩ := run_prefix ra
  obtain ⟨c, rc, st⟩ := run_snoc rb
  have hr := PlainRun.of rc hp
  cases st with
  | sat k =>
    obtain ⟨τ, k1, k2⟩ := k
    exact .inl ⟨rfl, τ, (hr.iff τ).1 k1, by rw [← hr.assumptions]; exact k2⟩
  | unsat k =>
    exact .inr ⟨rfl, fun τ k1 k2 => k τ ((hr.iff τ).2 k1) (by rw [hr.assumptions]; exact k2)⟩

/-- The same with hidden and observed variables, in the variables the user variables stand for. -/
theorem every_answer_named {s : St α} {h1 h2 : Hist} {r : List Nat} (x : Exec s (h1 ++ (.solve, r) :: h2)) :
    ∃ a, Abs.Run {} h1 a ∧ ((r = [1] ∧ ∃ τ, cnfSat τ a.clauses ∧ allHold τ a.assumptions) ∨
      (r = [0] ∧ UnsatUnder a.clauses a.assumptions)) := by
  obtain ⟨a, ra⟩ := refinement x
  rw [show h1 ++ (Call.solve, r) :: h2 = (h1 ++ [(Call.solve, r)]) ++ h2 by simp] at ra
  obtain ⟨b, rb⟩ := run_prefix ra
  obtain ⟨c, rc, st⟩ := run_snoc rb
  refine ⟨c, rc, ?_⟩
  cases st with
  | sat k => exact .inl ⟨rfl, k⟩
  | unsat k => exact .inr ⟨rfl, k⟩

/-- Two answers without a clause or assumption in between are the same. -/
theorem stable {s : St α} {h1 h2 h3 : Hist} {r r' : List Nat}
    (x : Exec s (h1 ++ (.solve, r) :: h2 ++ (.solve, r') :: h3)) (hp : Plain (h1 ++ (.solve, r) :: h2))
    (hn : added h2 = [] ∧ assumed (h1 ++ (.solve, r) :: h2) = assumed h1) : r = r' := by
  have e1 : added (h1 ++ (.solve, r) :: h2) = added h1 := by
    unfold added at hn ⊢
    rw [List.filterMap_append, List.filterMap_cons]
    simp [hn.1]
  have a2 := every_answer x hp
  rw [List.append_assoc, List.cons_append] at x
  have a1 := every_answer x (fun y hy => hp y (by simp [hy]))
  rw [e1, hn.2] at a2
  rcases a1 with ⟨k1, τ, t1, t2⟩ | ⟨k1, k2⟩ <;> rcases a2 with ⟨k3, k4⟩ | ⟨k3, k4⟩
  · rw [k1, k3]
  · exact absurd t2 (k4 τ t1)
  · obtain ⟨τ, t1, t2⟩ := k4
    exact absurd t2 (k2 τ t1)
  · rw [k1, k3]

/-! ### Test cases -/

open Sample

/-- Satisfiable, unsatisfiable under assumptions, satisfiable again with other assumptions, and
unsatisfiable after more clauses. -/
example : ∃ s : St Nat, Exec s
    [(.addClause [⟨0⟩, ⟨2⟩, ⟨4⟩], []), (.solve, [1]), (.assume [⟨1⟩, ⟨3⟩, ⟨5⟩], []), (.solve, [0]), (.assume [⟨1⟩], []), (.solve, [1]),
      (.addClause [⟨3⟩], []), (.addClause [⟨5⟩], []), (.solve, [0]), (.assume [], []), (.solve, [1]), (.addClause [⟨1⟩], []), (.solve, [0])] := by
  obtain ⟨s, rs, h1, h2⟩ := see_exec (f := fun _ rs => rs)
    (ops := [cl [1, 2, 3], .solve 50, asm [-1, -2, -3], .solve 50, asm [-1], .solve 50, cl [-2], cl [-3], .solve 50, asm [], .solve 50,
      cl [-1], .solve 50]) (x := [[], [1], [], [0], [], [1], [], [], [0], [], [1], [], [0]]) (by decide +kernel)
  subst h2
  exact ⟨s, h1⟩

end Varisat.C45
