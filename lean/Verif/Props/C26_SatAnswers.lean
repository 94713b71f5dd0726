import Verif.Proof.Solver.Plain
import Verif.Proof.Solver.Sample
/-!
# C26: SAT answers are correct

For every history of calls, every configuration and every choice the heuristics make (activities and
their arithmetic are arbitrary).
-/
namespace Varisat.C26
open Solver Api

variable {α : Type} [LinearOrder α]

/-- The model satisfies every clause ever added and contains every current assumption; it does not
contain a literal and its negation. -/
theorem model_satisfies {s : St α} {h : Hist} (x : Exec s h) (hp : Plain h) {m : List Lit}
    (hm : s.modelLits = some (some m)) :
    (∀ c ∈ added h, ∃ l ∈ c, l ∈ m) ∧ (∀ l ∈ assumed h, l ∈ m) ∧ ∀ l ∈ m, l.neg ∉ m := by
  obtain ⟨a, ids, h1, h2⟩ := x.inv
  exact h2.model_plain h1 hp hm

/-- With hidden and observed variables: the model agrees with an assignment that satisfies every clause
added (in the variables the user variables stood for at that time) and the current assumptions, and it
has a literal for every variable of a clause or assumption that still has a name. -/
theorem model_satisfies_named {s : St α} {h : Hist} (x : Exec s h) {m : List Lit}
    (hm : s.modelLits = some (some m)) :
    ∃ a, Abs.Run {} h a ∧
      (∃ τ, cnfSat τ a.clauses ∧ allHold τ a.assumptions ∧ ∀ l ∈ m, ∃ i, a.name l.var = some i ∧ τ i = !l.isNeg) ∧
      (∀ u i, a.name u = some i → ((∃ c ∈ a.clauses, ∃ l ∈ c, l.var = i) ∨ ∃ l ∈ a.assumptions, l.var = i) →
        ∃ b, Lit.mk' u b ∈ m) ∧
      ∀ l ∈ m, ∀ k ∈ m, l.var = k.var → l = k := by
  obtain ⟨a, ids, h1, h2⟩ := x.inv
  exact ⟨a, h1, h2.model hm⟩

/-- When `solve` returns true there is a model, unless `model` already panicked before. -/
theorem model_exists {s s' : St α} {h : Hist} (x : Exec s h) (hs : s.modelLits ≠ none) {e : Env α} {n : Nat}
    (hr : s.step e (.solve n) = .ok (s', [1])) : ∃ m, s'.modelLits = some (some m) := by
  obtain ⟨a, ids, h1, h2⟩ := x.inv
  unfold St.step at hr
  simp only at hr
  rcases h2.solve e n with k | ⟨s1, b, k1, k2, k3, k4, k5⟩
  · rw [k] at hr; cases hr
  rw [k1, ok_bind] at hr
  cases b with
  | false => cases hr
  | true =>
    obtain rfl : s1 = s' := by injection hr with hr; exact congrArg Prod.fst hr
    cases hu : s.sat with
    | unknown =>
      refine St.modelLits_ok (k4.1 rfl) (fun u g hg => ?_)
      obtain ⟨d, q1, q2, _⟩ := k2.b.v.ulive u g hg
      obtain ⟨v, hv⟩ := k5 hu rfl g ⟨d, q1, q2⟩
      exact List.getElem?_eq_some_iff.1 hv |>.1
    | sat =>
      have hnu : ({ s with invoked := true } : St α).sat ≠ .unknown := by
        show s.sat ≠ _; rw [hu]; simp
      have : s.solve e n = .ok ({ s with invoked := true }, true) := by
        unfold St.solve at k1 ⊢
        rcases St.solveLoop_known e hnu n with q | q
        · rw [q] at k1; cases k1
        · rw [q, ok_bind]
          simp [hu]
          rfl
      rw [this] at k1
      injection k1 with k1
      obtain rfl : { s with invoked := true } = s1 := congrArg Prod.fst k1
      have e1 : ({ s with invoked := true } : St α).modelLits = s.modelLits := rfl
      rw [e1]
      cases hm : s.modelLits with
      | none => exact absurd hm hs
      | some o =>
        cases o with
        | none => exact absurd hu (St.modelLits_none.1 hm)
        | some m => exact ⟨m, rfl⟩
    | unsat =>
      exfalso
      obtain ⟨τ, q1, q2, _⟩ := (k2.b.sat (k4.1 rfl)).val
      exact (h2.unsat hu).1 τ q1
    | unsatUnder =>
      exfalso
      obtain ⟨τ, q1, q2, _⟩ := (k2.b.sat (k4.1 rfl)).val
      exact h2.under hu τ q1 q2

/-- Both together: what the caller of `solve` relies on. -/
theorem solve_true {s s' : St α} {h : Hist} (x : Exec s h) (hp : Plain h) (hs : s.modelLits ≠ none) {e : Env α} {n : Nat}
    (he : e.Ok) (hr : s.step e (.solve n) = .ok (s', [1])) :
    ∃ m, s'.modelLits = some (some m) ∧ (∀ c ∈ added h, ∃ l ∈ c, l ∈ m) ∧ (∀ l ∈ assumed h, l ∈ m) ∧
      ∀ l ∈ m, l.neg ∉ m := by
  obtain ⟨m, hm⟩ := model_exists x hs hr
  have hp' : Plain (h ++ [(Op.call (.solve n), [1])]) := by
    intro y hy
    rcases List.mem_append.1 hy with hy | hy
    · exact hp y hy
    · simp only [List.mem_singleton] at hy; subst hy; exact ⟨fun u k => (by cases k), fun k => (by cases k)⟩
  have := model_satisfies (Exec.call e x he hr) hp' hm
  rw [added_snoc, assumed_snoc] at this
  exact ⟨m, hm, by simpa [Op.call] using this⟩

/-! ### Test cases -/

open Sample

/-- The theorem applies to a formula with three solutions, solved under an assumption. -/
example : ∃ (s : St Nat) (m : List Lit), Exec s [(.addClause [⟨0⟩, ⟨2⟩], []), (.addClause [⟨1⟩, ⟨4⟩], []),
      (.addClause [⟨3⟩, ⟨5⟩], []), (.assume [⟨1⟩], []), (.solve, [1])] ∧
    s.modelLits = some (some m) ∧ m.map Lit.toDimacs = [-1, 2, -3] := by
  obtain ⟨s, rs, h1, h2⟩ := see_exec (f := fun s rs => (rs, s.modelLits)) (ops := [cl [1, 2], cl [-1, 3], cl [-2, -3], asm [-1], .solve 20])
    (x := ([[], [], [], [], [1]], some (some [⟨1⟩, ⟨2⟩, ⟨5⟩]))) (by decide +kernel)
  obtain ⟨rfl, h3⟩ := Prod.mk.injEq _ _ _ _ ▸ h2
  exact ⟨s, _, h1, h3, by decide⟩

/-- The condition of `model_exists` can fail: `model` panics after `new_var` on a satisfiable formula, and
`solve` still returns true. -/
theorem model_panics : ∃ s : St Nat, Exec s [(.addClause [⟨0⟩], []), (.solve, [1]), (.newVar, [1]), (.solve, [1])] ∧
    s.modelLits = none := by
  obtain ⟨s, rs, h1, h2⟩ := see_exec (f := fun s rs => (rs, s.modelLits)) (ops := [cl [1], .solve 9, .newVar, .solve 9])
    (x := ([[], [1], [1], [1]], none)) (by decide +kernel)
  obtain ⟨rfl, h3⟩ := Prod.mk.injEq _ _ _ _ ▸ h2
  exact ⟨s, h1, h3⟩

end Varisat.C26
