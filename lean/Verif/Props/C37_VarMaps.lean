import Verif.Proof.Solver.Plain
import Verif.Proof.Solver.Sample
/-!
# C37: the variable maps stay bijective
-/
namespace Varisat.C37
open Solver Api

variable {α : Type} [LinearOrder α]

/-- User and global variables: looking up forwards and backwards gives the variable back. -/
theorem user_global {s : St α} {h : Hist} (x : Exec s h) (u g : Nat) :
    s.vars.gfu.map u = some g ↔ s.vars.ufg.map g = some u := by
  obtain ⟨a, ids, _, i⟩ := x.inv
  exact i.b.v.us u g

/-- Solver and global variables. -/
theorem solver_global {s : St α} {h : Hist} (x : Exec s h) (v g : Nat) :
    s.vars.gfs.map v = some g ↔ s.vars.sfg.map g = some v := by
  obtain ⟨a, ids, _, i⟩ := x.inv
  exact (i.b.v.gs g v).symm

/-- Two user variables never share a global variable. -/
theorem user_injective {s : St α} {h : Hist} (x : Exec s h) {u u' g : Nat} (h1 : s.vars.gfu.map u = some g)
    (h2 : s.vars.gfu.map u' = some g) : u = u' := by
  rw [user_global x] at h1 h2
  exact Option.some.inj (h1.symm.trans h2)

/-- Two user variables never share a solver variable. -/
theorem solver_injective {s : St α} {h : Hist} (x : Exec s h) {u u' v : Nat}
    (h1 : (s.vars.gfu.map u).bind s.vars.sfg.map = some v) (h2 : (s.vars.gfu.map u').bind s.vars.sfg.map = some v) : u = u' := by
  obtain ⟨g, k1, k2⟩ := Option.bind_eq_some_iff.1 h1
  obtain ⟨g', k3, k4⟩ := Option.bind_eq_some_iff.1 h2
  rw [← solver_global x] at k2 k4
  obtain rfl := Option.some.inj (k2.symm.trans k4)
  exact user_injective x k1 k3

/-- A free index is not mapped to anything, and nothing is mapped to it; every index below the bound of
its map is mapped or free. -/
theorem free_unmapped {s : St α} {h : Hist} (x : Exec s h) :
    (∀ u, u ∈ s.vars.userFree → s.vars.gfu.map u = none ∧ ∀ g, s.vars.ufg.map g ≠ some u) ∧
    (∀ v, v ∈ s.vars.solverFree → s.vars.gfs.map v = none ∧ ∀ g, s.vars.sfg.map g ≠ some v) ∧
    (∀ g, g ∈ s.vars.globalFree → s.vars.ufg.map g = none ∧ s.vars.sfg.map g = none ∧
      (∀ u, s.vars.gfu.map u ≠ some g) ∧ ∀ v, s.vars.gfs.map v ≠ some g) ∧
    (∀ u, u < s.vars.gfu.len → s.vars.gfu.map u = none → u ∈ s.vars.userFree) ∧
    (∀ v, v < s.vars.gfs.len → s.vars.gfs.map v = none → v ∈ s.vars.solverFree) := by
  have hu := user_global x
  have hs := solver_global x
  obtain ⟨a, ids, _, i⟩ := x.inv
  have hv := i.b.v
  refine ⟨fun u k => ?_, fun v k => ?_, fun g k => ?_, fun u k1 k2 => (hv.ufree u).2 ⟨k1, k2⟩, fun v k1 k2 => (hv.sfree v).2 ⟨k1, k2⟩⟩
  · have := ((hv.ufree u).1 k).2
    refine ⟨this, fun g hg => ?_⟩
    rw [← hu, this] at hg; cases hg
  · have := ((hv.sfree v).1 k).2
    refine ⟨this, fun g hg => ?_⟩
    rw [← hs, this] at hg; cases hg
  · obtain ⟨d, d1, d2⟩ := hv.gfree g k
    have n1 : ∀ u, s.vars.gfu.map u ≠ some g := by
      intro u hg
      obtain ⟨d', q1, q2, _⟩ := hv.ulive u g hg
      rw [d1] at q1
      obtain rfl := Option.some.inj q1
      rw [d2] at q2; cases q2
    have n2 : ∀ v, s.vars.gfs.map v ≠ some g := by
      intro v hg
      obtain ⟨d', q1, q2⟩ := hv.slive v g hg
      rw [d1] at q1
      obtain rfl := Option.some.inj q1
      rw [d2] at q2; cases q2
    refine ⟨?_, ?_, n1, n2⟩
    · cases q : s.vars.ufg.map g with
      | none => rfl
      | some u => exact absurd ((hu u g).2 q) (n1 u)
    · cases q : s.vars.sfg.map g with
      | none => rfl
      | some v => exact absurd ((hs v g).2 q) (n2 v)

/-- The variable returned by `new_var` was not in use. -/
theorem new_var_fresh {s s' : St α} {h : Hist} (x : Exec s h) {e : Env α} (he : e.Ok) {r : List Nat}
    (hr : s.step e .newVar = .ok (s', r)) :
    ∃ u, r = [u] ∧ s.vars.gfu.map u = none ∧ (s'.vars.gfu.map u).isSome = true := by
  obtain ⟨a, ids, _, i⟩ := x.inv
  obtain ⟨s1, u, ids', h1, h2, h3, h4⟩ := i.newVar he
  unfold St.step at hr
  simp only at hr
  rw [h1, ok_bind] at hr
  cases hr
  refine ⟨u, rfl, ?_, ?_⟩
  · rw [i.n.name] at h3
    simpa using h3
  · have := h2.n.name u
    unfold Abs.create at this
    rw [if_pos h3] at this
    simp only [if_true] at this
    cases q : s1.vars.gfu.map u with
    | none => rw [q] at this; cases this
    | some g => rfl

/-- The map from user to global variables agrees with the specification of the calls made: distinct global
variables stand for distinct variables of the formula. -/
theorem names {s : St α} {h : Hist} (x : Exec s h) : ∃ a ids, Abs.Run {} h a ∧
    (∀ u, a.name u = (s.vars.gfu.map u).map ids) ∧
    ∀ u u' g g', s.vars.gfu.map u = some g → s.vars.gfu.map u' = some g' → ids g = ids g' → g = g' := by
  obtain ⟨a, ids, r, i⟩ := x.inv
  refine ⟨a, ids, r, i.n.name, fun u u' g g' h1 h2 he => ?_⟩
  obtain ⟨d, q1, q2, _⟩ := i.b.v.ulive u g h1
  obtain ⟨d', q3, q4, _⟩ := i.b.v.ulive u' g' h2
  exact i.b.inj g g' ⟨d, q1, q2⟩ ⟨d', q3, q4⟩ he

/-- A user variable keeps standing for the same variable of the formula until it is hidden, in every run
of the specification. -/
theorem name_stable {a b : Abs} {c : Call} {r : List Nat} (st : Abs.Step a c r b) {u i : Nat} (hu : a.name u = some i)
    (hc : c ≠ .hideVar u) : b.name u = some i := by
  have cr : ∀ (a : Abs) v, a.name u = some i → (a.create v).name u = some i := by
    intro a v h
    unfold Abs.create
    by_cases k : a.name v = none
    · rw [if_pos k]
      simp only
      rw [if_neg (fun q => by rw [q, k] at h; cases h)]; exact h
    · rw [if_neg k]; exact h
  have crs : ∀ (us : List Nat) (a : Abs), a.name u = some i → (us.foldl Abs.create a).name u = some i := by
    intro us
    induction us with
    | nil => intro a h; exact h
    | cons v us ih => intro a h; exact ih _ (cr a v h)
  have en : ∀ (a : Abs) v, a.name u = some i → (a.ensure v).name u = some i := fun a v h => cr _ _ (crs _ _ h)
  have ens : ∀ (ls : List Lit) (a : Abs), a.name u = some i → (a.ensureLits ls).name u = some i := by
    intro ls
    induction ls with
    | nil => intro a h; exact h
    | cons l ls ih => intro a h; exact ih _ (en a l.var h)
  cases st with
  | addClause c => exact ens c a hu
  | ignored => exact hu
  | newVar v => exact cr a v hu
  | assume ls => exact ens ls a hu
  | sat => exact hu
  | unsat => exact hu
  | witnessVar v => exact en a v hu
  | sampleVar v => exact en a v hu
  | hideVar v =>
    simp only
    rw [if_neg (fun q => hc (by rw [q])), en a v hu]
  | observe _ _ _ h1 _ h2 =>
    by_cases k : u ∈ r
    · rw [h1 u k] at hu; cases hu
    · rw [h2 u k]; exact hu

/-! ### Test cases -/

open Sample

/-- A hidden variable gives its index back; the next new variable gets it, and observing brings the
hidden one back under another index. -/
example : ∃ s : St Nat, Exec s [(.addClause [⟨0⟩, ⟨2⟩], []), (.hideVar 0, []), (.newVar, [0]), (.observe, [2]), (.newVar, [3])] ∧
    [0, 1, 2, 3].map s.vars.gfu.map = [some 2, some 1, some 0, some 3] := by
  obtain ⟨s, rs, h1, h2⟩ := see_exec (f := fun s rs => (rs, [0, 1, 2, 3].map s.vars.gfu.map)) (ops := [cl [1, 2], .hideVar 0, .newVar, .observe, .newVar])
    (x := ([[], [], [0], [2], [3]], [some 2, some 1, some 0, some 3])) (by decide +kernel)
  obtain ⟨rfl, h3⟩ := Prod.mk.injEq _ _ _ _ ▸ h2
  exact ⟨s, h1, h3⟩

end Varisat.C37
