import Verif.Proof.Solver.ModelOk
import Verif.Proof.Solver.Sample
/-!
# C55: when `model()` and `failed_core()` return something

In `modelLits` the outer `none` is a panic and the inner one the `None` of Rust.

Partial: if a variable was created after the model was found, `model()` may panic (`C26.model_panics`), and
then also after a further `solve`.
-/
namespace Varisat.C55
open Solver Api

variable {α : Type} [LinearOrder α]

/-- `model()` returns `None` if and only if `solve` did not return `true` or the problem was changed afterwards. -/
theorem model_none {s : St α} {h : Hist} (x : Exec s h) : s.modelLits = some none ↔ found h = false := by
  rw [St.modelLits_none, ne_eq, x.found_iff, Bool.not_eq_true]

/-- After `solve` returned `true`, `model()` returns a model as long as no clause is added, no assumption made and
no variable created. -/
theorem model_some_partial {s : St α} {h1 h2 : Hist} (x : Exec s (h1 ++ (.solve, [1]) :: h2)) (hf : found h1 = false)
    (hq : ∀ y ∈ h2, (∀ c, y.1 ≠ .addClause c) ∧ ∀ c, y.1 ≠ .assume c)
    (hc : ∀ p y q, h2 = p ++ y :: q → ¬ Creates (h1 ++ (.solve, [1]) :: p) y.1) : ∃ m, s.modelLits = some (some m) := by
  obtain ⟨_, _, _, hi⟩ := x.inv
  exact (x.full hf hq hc).model hi.b.v

/-- After `solve` returned `false`, `failed_core()` returns a core until assumptions are set. -/
theorem core_some {s : St α} {h1 h2 : Hist} (x : Exec s (h1 ++ (.solve, [0]) :: h2)) (hq : ∀ y ∈ h2, ∀ c, y.1 ≠ .assume c) :
    ∃ c, s.failedCore = some c := (x.refuted hq).core

/-- With a model there is no core. -/
theorem core_none {s : St α} {h : Hist} (x : Exec s h) (hf : found h = true) : s.failedCore = none := by
  unfold St.failedCore
  rw [x.found_iff.2 hf]

/-- A core that is present right after assumptions were set is empty, and the formula is unsatisfiable. -/
theorem core_assume {s : St α} {h : Hist} {ls : List Lit} {r : List Nat} (x : Exec s (h ++ [(.assume ls, r)])) {c : List Lit}
    (hc : s.failedCore = some c) : c = [] ∧ ∃ a, Abs.Run {} (h ++ [(.assume ls, r)]) a ∧ Unsat a.clauses := by
  have h1 := x.assume_core
  have h2 : s.sat = .unsat := by
    rcases St.Refuted.of hc with k | k
    · exact k
    · exact absurd k h1
  obtain ⟨a, ids, hr, hi⟩ := x.inv
  unfold St.failedCore at hc
  rw [h2] at hc
  cases hc
  exact ⟨rfl, a, hr, (hi.unsat h2).1⟩

/-! ### Test cases -/

open Sample

/-- For `model_none` and `model_some_partial`: a model that is still there after a call of `sample_var` for a known
variable, and one that is not there after an assumption was made. -/
example : ∃ (s : St Nat) (h1 h2 : Hist), Exec s (h1 ++ (.solve, [1]) :: h2) ∧ found h1 = false ∧ h2.length = 2 ∧
    (∀ y ∈ h2, (∀ c, y.1 ≠ .addClause c) ∧ ∀ c, y.1 ≠ .assume c) ∧
    (∀ p y q, h2 = p ++ y :: q → ¬ Creates (h1 ++ (.solve, [1]) :: p) y.1) ∧
    s.modelLits.map (Option.map (List.map Lit.toDimacs)) = some (some [-1, 2]) := by
  obtain ⟨s, rs, k1, k2⟩ := see_exec (f := fun s rs => (rs, s.modelLits.map (Option.map (List.map Lit.toDimacs))))
    (ops := [cl [1, 2], asm [-1], .solve 20, .sampleVar 1, .solve 3]) (x := ([[], [], [1], [], [1]], some (some [-1, 2]))) (by decide +kernel)
  simp only [Prod.mk.injEq] at k2
  obtain ⟨rfl, k3⟩ := k2
  refine ⟨s, [(.addClause [⟨0⟩, ⟨2⟩], []), (.assume [⟨1⟩], [])], [(.sampleVar 1, []), (.solve, [1])], k1, rfl, rfl, ?_, ?_, k3⟩
  · simp
  · have key : ∀ a, Abs.Run {} [(.addClause [⟨0⟩, ⟨2⟩], []), (.assume [⟨1⟩], []), (.solve, [1])] a → a.name 1 ≠ none := by
      intro a r
      have hr := PlainRun.of r (by intro y hy; simp at hy; rcases hy with rfl | rfl | rfl <;> exact ⟨fun u k => (by cases k), fun k => (by cases k)⟩)
      have hc : ([⟨0⟩, ⟨2⟩] : List Lit) ∈ a.clauses := by
        rcases hr.clauses with k | ⟨k, k'⟩
        · rw [k]; decide
        · exfalso
          refine k (fun _ => true) (fun c hc => ?_)
          obtain rfl : c = [⟨0⟩, ⟨2⟩] := List.mem_singleton.1 (k' c hc)
          exact ⟨⟨0⟩, by simp, by decide⟩
      have : 1 < a.len := hr.lt _ hc ⟨2⟩ (by simp)
      rw [hr.p.name, if_pos this]
      simp
    intro p y q hp
    rcases p with _ | ⟨y1, _ | ⟨y2, p⟩⟩
    · simp only [List.nil_append, List.cons.injEq] at hp
      obtain ⟨rfl, -⟩ := hp
      exact fun k => k key
    · simp only [List.cons_append, List.nil_append, List.cons.injEq] at hp
      obtain ⟨-, rfl, -⟩ := hp
      exact id
    · simp at hp

/-- For `core_some`, `core_none` and `core_assume`: a core is there after `solve` returned `false`, also when a clause was added, and
not after other assumptions. -/
example : ∃ (s s' : St Nat) (h1 h2 : Hist), Exec s (h1 ++ (.solve, [0]) :: h2) ∧ (∀ y ∈ h2, ∀ c, y.1 ≠ .assume c) ∧ h2.length = 1 ∧
    s.failedCore = some [⟨2⟩] ∧ Exec s' (h1 ++ (.solve, [0]) :: h2 ++ [(.assume [⟨4⟩], [])]) ∧ s'.failedCore = none := by
  obtain ⟨s, rs, k1, k2⟩ := see_exec (f := fun s rs => (rs, s.failedCore))
    (ops := [cl [1, -2], cl [-1, -2], asm [2, 3], .solve 20, cl [3, 4]]) (x := ([[], [], [], [0], []], some [⟨2⟩])) (by decide +kernel)
  obtain ⟨s', rs', k3, k4⟩ := see_exec (f := fun s rs => (rs, s.failedCore))
    (ops := [cl [1, -2], cl [-1, -2], asm [2, 3], .solve 20, cl [3, 4], asm [3]]) (x := ([[], [], [], [0], [], []], none)) (by decide +kernel)
  simp only [Prod.mk.injEq] at k2 k4
  obtain ⟨rfl, k2⟩ := k2
  obtain ⟨rfl, k4⟩ := k4
  exact ⟨s, s', [(.addClause [⟨0⟩, ⟨3⟩], []), (.addClause [⟨1⟩, ⟨3⟩], []), (.assume [⟨2⟩, ⟨4⟩], [])], [(.addClause [⟨4⟩, ⟨6⟩], [])], k1, by simp, rfl, k2, k3, k4⟩

end Varisat.C55
