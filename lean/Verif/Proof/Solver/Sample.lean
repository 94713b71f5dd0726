import Verif.Model.Solver.Exec
import Verif.Model.Lit
import Mathlib.Order.Nat
/-!
# Concrete runs, for the examples

Activities are natural numbers that are never rescaled; the free lists are used from the front.
-/
namespace Varisat.Solver.Sample

/-- Integer arithmetic for activities. -/
def ar : Arith Nat := ⟨0, 1, (· + ·), fun x => x, fun x => x, fun _ => false⟩

/-- The parameters. -/
def env : Env Nat := ⟨ar, ar, fun _ _ l => l.head?, 10, 10, 2⟩

theorem env_ok : env.Ok := by
  refine ⟨fun _ _ => rfl, fun _ _ l hl => ?_⟩
  cases l with
  | nil => exact absurd rfl hl
  | cons x l => exact ⟨x, by simp, rfl⟩

/-- A clause from DIMACS numbers. -/
def cl (c : List Int) : Op := .addClause (c.map Lit.fromDimacs)

/-- Assumptions from DIMACS numbers. -/
def asm (c : List Int) : Op := .assume (c.map Lit.fromDimacs)

/-- Some calls on a solver. -/
def goFrom : List Op → St Nat → Api.Hist → Except Stop (St Nat × Api.Hist)
  | [], s, h => .ok (s, h)
  | op :: ops, s, h =>
    match s.step env op with
    | .error e => .error e
    | .ok (s', r) => goFrom ops s' (h ++ [(op.call, r)])

/-- Some calls on a new solver. -/
def go (ops : List Op) : Except Stop (St Nat × Api.Hist) := goFrom ops (St.new env) []

theorem goFrom_exec : ∀ (ops : List Op) {s : St Nat} {h : Api.Hist} {s' : St Nat} {h' : Api.Hist}, Exec s h →
    goFrom ops s h = .ok (s', h') → Exec s' h'
  | [], _, _, _, _, x, k => by cases k; exact x
  | op :: ops, s, h, s', h', x, k => by
    rw [goFrom] at k
    cases hs : s.step env op with
    | error e => rw [hs] at k; cases k
    | ok q =>
      obtain ⟨s1, r⟩ := q
      rw [hs] at k
      exact goFrom_exec ops (.call env x env_ok hs) k

theorem goFrom_hist : ∀ (ops : List Op) {s : St Nat} {h : Api.Hist} {s' : St Nat} {h' : Api.Hist},
    goFrom ops s h = .ok (s', h') → h'.map (·.1) = h.map (·.1) ++ ops.map Op.call
  | [], _, _, _, _, k => by cases k; simp
  | op :: ops, s, h, s', h', k => by
    rw [goFrom] at k
    cases hs : s.step env op with
    | error e => rw [hs] at k; cases k
    | ok q =>
      obtain ⟨s1, r⟩ := q
      rw [hs] at k
      rw [goFrom_hist ops k]; simp

theorem go_exec {ops : List Op} {s : St Nat} {h : Api.Hist} (k : go ops = .ok (s, h)) :
    Exec s h ∧ h.map (·.1) = ops.map Op.call :=
  ⟨goFrom_exec ops (.new env) k, by rw [goFrom_hist ops k]; rfl⟩

/-- Something read from the state and the results after some calls on a new solver. -/
def see {β : Type} (f : St Nat → List (List Nat) → β) (ops : List Op) : Option β :=
  match go ops with
  | .ok (s, h) => some (f s (h.map (·.2)))
  | .error _ => none

theorem see_exec {β : Type} {f : St Nat → List (List Nat) → β} {ops : List Op} {x : β} (k : see f ops = some x) :
    ∃ (s : St Nat) (rs : List (List Nat)), Exec s ((ops.map Op.call).zip rs) ∧ f s rs = x := by
  unfold see at k
  cases hg : go ops with
  | error e => rw [hg] at k; cases k
  | ok q =>
    obtain ⟨s, h⟩ := q
    rw [hg] at k
    obtain ⟨h1, h2⟩ := go_exec hg
    refine ⟨s, h.map (·.2), ?_, Option.some.inj k⟩
    rw [← h2, List.zip_map']
    simpa using h1

end Varisat.Solver.Sample
