import Verif.Proof.Solver.Mark
import Verif.Proof.Solver.Sample
/-!
# C53: which calls of the solver panic

The full claim is that a call panics if and only if it breaks the rules for the use of variables
(`Allowed`, `Spec/Marks.lean`). One direction holds (`rejected`). The other direction is false for a change of
the mode of a variable that was assumed during an earlier `solve` (`stale_mark`); it holds for all other calls
(`no_panic_partial`).
-/
namespace Varisat.C53
open Solver Api

variable {α : Type} [LinearOrder α]

/-- A call that follows the rules does not panic, unless it changes the mode of a variable that was
assumed during an earlier `solve`. The last hypothesis is what is missing for the full claim; it is
needed (`stale_mark`). -/
theorem no_panic_partial {s : St α} {h : Hist} (x : Exec s h) {e : Env α} (he : e.Ok) (op : Op) (ha : Allowed (marks h) op.call)
    (ho : ∀ u, op.call.modeOf = some u → u ∉ (marks h).old) : s.step e op ≠ .error .panic :=
  x.no_panic he op ha ho

/-- Without assumptions and without witness variables no call panics. -/
theorem plain_never {s : St α} {h : Hist} (x : Exec s h) {e : Env α} (he : e.Ok) (op : Op)
    (hp : ∀ y ∈ h, (∀ ls, y.1 ≠ .assume ls) ∧ (∀ u, y.1 ≠ .witnessVar u) ∧ y.1 ≠ .observe) : s.step e op ≠ .error .panic := by
  suffices k : (marks h).witness = [] ∧ (marks h).now = [] ∧ (marks h).old = [] by
    refine x.no_panic he op ?_ (fun u _ => by simp [k.2.2])
    cases op <;> simp [Op.call, Allowed, k.1, k.2.1]
  unfold marks
  suffices k : ∀ (h : Hist) (m : Marks), (∀ y ∈ h, (∀ ls, y.1 ≠ .assume ls) ∧ (∀ u, y.1 ≠ .witnessVar u) ∧ y.1 ≠ .observe) →
      m.witness = [] ∧ m.now = [] ∧ m.old = [] →
      (h.foldl Marks.after m).witness = [] ∧ (h.foldl Marks.after m).now = [] ∧ (h.foldl Marks.after m).old = [] from
    k h {} hp ⟨rfl, rfl, rfl⟩
  intro h
  induction h with
  | nil => intro m _ hm; exact hm
  | cons y h ih =>
    intro m hp ⟨h1, h2, h3⟩
    rw [List.foldl_cons]
    refine ih _ (fun z hz => hp z (by simp [hz])) ?_
    obtain ⟨q1, q2, q3⟩ := hp y (by simp)
    obtain ⟨c, r⟩ := y
    cases c with
    | assume ls => exact absurd rfl (q1 ls)
    | witnessVar u => exact absurd rfl (q2 u)
    | observe => exact absurd rfl q3
    | _ => simp [Marks.after, h1, h2, h3]

/-- A call that breaks the rules panics. The exception is a clause that is added after the clauses
became unsatisfiable: it is ignored without being looked at. -/
theorem rejected {s : St α} {h : Hist} (x : Exec s h) {e : Env α} (he : e.Ok) (op : Op) (ha : ¬ Allowed (marks h) op.call) :
    s.step e op = .error .panic ∨
      ((∃ c, op = .addClause c) ∧ s.step e op = .ok (s, []) ∧ ∃ a, Abs.Run {} h a ∧ Unsat a.clauses) := by
  rcases x.rejects he op ha with k | ⟨k, c, rfl⟩
  · exact .inl k
  · obtain ⟨a, ids, h1, h2⟩ := x.inv
    refine .inr ⟨⟨c, rfl⟩, ?_, a, h1, (h2.unsat k).1⟩
    simp [St.step, St.loadClause, k]

open Sample

/-- Finding: an assumption that is implied by others keeps its mark. Here the assumptions 1 and 2 are
dropped after `solve`, and hiding variable 2 panics although nothing is assumed. -/
theorem stale_mark : ∃ (s : St Nat) (h : Hist), Exec s h ∧
    h = [(.addClause [⟨1⟩, ⟨2⟩], []), (.assume [⟨0⟩, ⟨2⟩], []), (.solve, [1]), (.assume [], [])] ∧
    Allowed (marks h) (.hideVar 1) ∧ s.step env (.hideVar 1) = .error .panic := by
  obtain ⟨s, rs, h1, h2⟩ := see_exec (f := fun s rs => (rs, match s.step env (.hideVar 1) with | .error .panic => true | _ => false))
    (ops := [cl [-1, 2], asm [1, 2], .solve 50, asm []])
    (x := ([[], [], [1], []], true)) (by decide +kernel)
  obtain ⟨rfl, h3⟩ := Prod.mk.injEq _ _ _ _ ▸ h2
  refine ⟨s, _, h1, rfl, by decide, ?_⟩
  revert h3
  split
  · intro _; assumption
  · intro h; cases h

/-! ### Test cases -/

/-- A history with hidden, witness and assumed variables in which the hypotheses of `no_panic_partial` hold
for some calls and those of `rejected` for others. -/
example : ∃ (s : St Nat) (h : Hist), Exec s h ∧
    Allowed (marks h) (.hideVar 1) ∧ 1 ∉ (marks h).old ∧ Allowed (marks h) (.addClause [⟨0⟩, ⟨4⟩]) ∧
    ¬ Allowed (marks h) (.addClause [⟨0⟩, ⟨2⟩]) ∧ ¬ Allowed (marks h) (.assume [⟨3⟩]) ∧ ¬ Allowed (marks h) (.sampleVar 2) := by
  obtain ⟨s, rs, h1, h2⟩ := see_exec (f := fun _ rs => rs)
    (ops := [cl [1, 2, 3], cl [-1, -2], .hideVar 0, .witnessVar 1, .solve 50, asm [3], .solve 50, .newVar])
    (x := [[], [], [], [], [1], [], [1], [0]]) (by decide +kernel)
  subst h2
  exact ⟨s, _, h1, by decide, by decide, by decide, by decide, by decide, by decide⟩

/-- The exception of `rejected`: a witness variable in a clause after the empty clause. -/
example : ∃ (s : St Nat) (h : Hist), Exec s h ∧ ¬ Allowed (marks h) (.addClause [⟨0⟩]) ∧
    (s.step env (.addClause [⟨0⟩])).isOk := by
  obtain ⟨s, rs, h1, h2⟩ := see_exec (f := fun s rs => (rs, (s.step env (.addClause [⟨0⟩])).isOk))
    (ops := [.newVar, .witnessVar 0, cl []]) (x := ([[0], [], []], true)) (by decide +kernel)
  obtain ⟨rfl, h3⟩ := Prod.mk.injEq _ _ _ _ ▸ h2
  exact ⟨s, _, h1, by decide, h3⟩

/-- The hypotheses of `plain_never`. -/
example : ∃ (s : St Nat) (h : Hist), Exec s h ∧ h.length = 5 ∧
    ∀ y ∈ h, (∀ ls, y.1 ≠ .assume ls) ∧ (∀ u, y.1 ≠ .witnessVar u) ∧ y.1 ≠ .observe := by
  obtain ⟨s, rs, h1, h2⟩ := see_exec (f := fun _ rs => rs)
    (ops := [cl [1, 2, 3], cl [-1, -2], .hideVar 0, .solve 50, .newVar])
    (x := [[], [], [], [1], [0]]) (by decide +kernel)
  subst h2
  refine ⟨s, _, h1, rfl, ?_⟩
  simp [cl, Op.call]

end Varisat.C53
