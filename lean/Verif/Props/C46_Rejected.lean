import Verif.Props.C19_Multiset
/-!
# C46: keeping a checker after a rejected step
-/
namespace Varisat
open Checker
open Demo (accepted final final_ok)

/-- The error of a run. -/
def Demo.errorOf (r : EStateM.Result Err St Unit) : Option Err := match r with
  | .ok _ _ => none
  | .error e _ => some e
open Demo (errorOf)

theorem Demo.error_final {r : EStateM.Result Err St Unit} {e : Err} (h : errorOf r = some e) :
    r = .error e (final r) := by
  cases r <;> simp_all [errorOf, final]

/-- **C46**: a call rejected with `CheckFailed` leaves clauses, unit clauses, known contradictions, ids
and assumptions as they were and passes nothing to processors, also after earlier rejected calls.

Missing for the full property, because false of the code: rejections for a hash without clause
(`C46.no_clause_panics_later`) and `UnitClauses` steps (`C46.unit_clauses_half_applied`). -/
theorem C46.state_kept_partial (env : Env) (F : List (List Lit)) (s s' : St) (hr : Ran env F s) (op : Op)
    (n : Nat) (w : Why) (h : op.exec env s = .error (.checkFailed n w) s')
    (hw : ∀ h, w ≠ .noClauseForHash h) (hop : ∀ us, op ≠ .step (.unitClauses us)) :
    (contents s').Perm (contents s) ∧ (∀ k, lookup s' k = lookup s k) ∧ s'.units = s.units ∧
    s'.unsat = s.unsat ∧ s'.unitConflict = s.unitConflict ∧ s'.nextId = s.nextId ∧
    s'.assumptions = s.assumptions ∧ s'.out = s.out := by
  have key : ∀ s1, StepErr s1 (.checkFailed n w) s' → Same s1 s' ∧ s'.out = s1.out := by
    intro s1 he
    rcases he with h1 | ⟨k, h1⟩ | ⟨-, h1, h2⟩
    · rcases h1 with h1 | h1 <;> simp at h1
    · simp only [Err.checkFailed.injEq] at h1; exact absurd h1.2 (hw k)
    · exact ⟨h1, h2⟩
  have he := wp_err (op_eff env hr.core.pre op) h
  have hs : Same s s' ∧ s'.out = s.out := by
    cases op with
    | add c => exact key s he
    | step st =>
      unfold OpErr StepErrEff at he
      simp only at he
      split at he
      · exact absurd rfl (hop _)
      · obtain ⟨h1, h2⟩ := key _ he
        exact ⟨(quiet_step hr.core.pre).toSame.trans h1, h2⟩
  obtain ⟨h1, h2⟩ := hs
  exact ⟨contents_perm h1.perm, lookup_perm hr.core.pre.wf h1.wf h1.perm, h1.units, h1.unsat, h1.conflict,
    h1.nextId, h1.assumptions, h2⟩

/-- A deletion without justification is rejected after a nontrivial history. -/
example : ∃ n s', Op.exec Demo.env (.step (.deleteClause (Demo.cl [1, 2]) .simplified))
    (final (execs Demo.env Demo.counting {})) = .error (.checkFailed n .notSubsumed) s' := by
  exact ⟨_, _, Demo.error_final (e := .checkFailed 4 .notSubsumed) (by decide +kernel)⟩

/-- **C46**: answers stay sound when rejected calls are interleaved (also rejected `UnitClauses` steps):
contradictions are real, everything reported is implied by the clauses of accepted additions, failed
assumptions really fail. -/
theorem C46.sound_after_rejections (env : Env) (F : List (List Lit)) (s : St) (hr : Ran env F s) :
    (s.unsat = true → Unsat F) ∧
    (∀ id red c ps, CheckedStep.atClause id red c ps ∈ s.out → Entails F c) ∧
    (∀ core ps, CheckedStep.failedAssumptions core ps ∈ s.out → UnsatUnder F core) ∧
    (∀ x ∈ contents s, Entails F x.2.2.2) ∧
    (∀ l, UnitKnown s l → Entails F [l]) := by
  refine ⟨hr.core.unsat, fun id red c ps h => hr.out _ h, fun core ps h => hr.out _ h, ?_, ?_⟩
  · intro x hx
    rw [contents_eq] at hx
    obtain ⟨e, he, rfl⟩ := List.mem_map.1 hx
    exact hr.core.sound e he
  · rintro l ⟨id, h⟩
    have := hr.core.usound _ _ h
    simp only [Lit.mk'_var_neg] at this
    exact this

/-- **C46**: after such rejections the next call still does not run into the assertion on leftover
temporary assignments: the trail is empty and only permanent unit clauses are assigned. -/
theorem C46.no_leftovers (env : Env) (F : List (List Lit)) (s : St) (hr : Ran env F s) :
    s.trail = [] ∧ ∀ v u, s.units v = some u → ∃ id, u.id = .global id :=
  ⟨hr.core.pre.trail, hr.core.pre.glob⟩

/-- A history with a rejected step in between. -/
example : ∃ s, Ran Demo.env (added Demo.counting) s ∧ (contents s).length = 2 ∧
    s.step = (final (execs Demo.env Demo.counting {})).step + 1 := by
  have h := (Demo.ran_counting).reject (.step (.deleteClause (Demo.cl [1, 2]) .simplified)) _ .notSubsumed
    (s' := final (Op.exec Demo.env (.step (.deleteClause (Demo.cl [1, 2]) .simplified))
      (final (execs Demo.env Demo.counting {}))))
    (Demo.error_final (e := .checkFailed 4 .notSubsumed) (by decide +kernel)) (by simp)
  exact ⟨_, h, by decide +kernel, by decide +kernel⟩

/-! ### Where the claim fails -/


/-- Finding: when a hash names no clause, `check_clause_with_hashes` returns (`rup.rs:95-105`) before
undoing the temporary assignments; the next check of the same checker panics in
`assert!(trail.is_empty())` (`rup.rs:57`), and unit clauses added panic too. -/
theorem C46.no_clause_panics_later :
    let s := final (execs Demo.env Demo.square {})
    let r := Op.exec Demo.env (.step (.atClause false (Demo.cl [1]) [5])) s
    errorOf r = some (.checkFailed 1 (.noClauseForHash 5)) ∧
    (∃ u, (final r).units 0 = some u ∧ s.units 0 = none) ∧
    errorOf (Op.exec Demo.env (.step (.atClause false (Demo.cl [1]) [Demo.hash [1, 2], Demo.hash [1, -2]])) (final r)) =
      some .panic ∧
    errorOf (Op.exec Demo.env (.add (Demo.cl [1])) (final r)) = some .panic ∧
    accepted (Op.exec Demo.env (.step (.atClause false (Demo.cl [1]) [Demo.hash [1, 2], Demo.hash [1, -2]])) s) = true := by
  refine ⟨by decide +kernel, ⟨⟨.inClause, false⟩, by decide +kernel, by decide +kernel⟩, by decide +kernel,
    by decide +kernel, by decide +kernel⟩

/-- Finding: a `UnitClauses` step rejected at its second unit keeps the first. -/
theorem C46.unit_clauses_half_applied :
    let s := final (execs Demo.env [.add (Demo.cl [1, 2]), .add (Demo.cl [-2]), .add (Demo.cl [3, 4, 5])] {})
    let r := Op.exec Demo.env (.step (.unitClauses [(Demo.lit 1, Demo.hash [1, 2]), (Demo.lit 3, Demo.hash [3, 4, 5])])) s
    errorOf r = some (.checkFailed 1 .atFailed) ∧ s.units 0 = none ∧
    (final r).units 0 = some ⟨.global 3, true⟩ := by
  refine ⟨by decide +kernel, by decide +kernel, by decide +kernel⟩

/-- Finding: a rejected `ChangeSamplingMode` of a hidden variable has changed the mode (`state.rs:222-256`): a
clause over it, rejected before, is then accepted. -/
theorem C46.sampling_mode_half_applied :
    let s := final (execs Demo.env [.add (Demo.cl [1, 2]), .step (.userVarName 0 (some 0)),
      .step (.userVarName 0 none)] {})
    let r := Op.exec Demo.env (.step (.changeSamplingMode 0 true)) s
    errorOf r = some (.checkFailed 3 .sampleHidden) ∧
    errorOf (Op.exec Demo.env (.add (Demo.cl [1])) s) = some (.checkFailed 2 .notSampling) ∧
    accepted (Op.exec Demo.env (.add (Demo.cl [1])) (final r)) = true := by decide +kernel

/-- Finding: a rejected deletion forgets the previous irredundant clause (`state.rs:392-397`): a later
deletion justified by it, accepted without the rejected step, is rejected. -/
theorem C46.rejected_delete_forgets :
    let s := final (execs Demo.env (Demo.square ++
      [.step (.atClause false (Demo.cl [1]) [Demo.hash [1, 2], Demo.hash [1, -2]])]) {})
    let r := Op.exec Demo.env (.step (.deleteClause (Demo.cl [1, 3]) .simplified)) s
    errorOf r = some (.checkFailed 2 .deleteUnknown) ∧
    accepted (Op.exec Demo.env (.step (.deleteClause (Demo.cl [1, 2]) .simplified)) s) = true ∧
    errorOf (Op.exec Demo.env (.step (.deleteClause (Demo.cl [1, 2]) .simplified)) (final r)) =
      some (.checkFailed 3 .notSubsumed) := by decide +kernel

/-- Finding: steps of a malformed proof file can panic instead of being rejected: a model or a deletion
of a satisfied clause mentioning a variable never seen (`state.rs:352-366`, `state.rs:480-494`). -/
theorem C46.malformed_panics :
    errorOf (Op.exec Demo.env (.step (.model (Demo.cl [1]))) {}) = some .panic ∧
    errorOf (Op.exec Demo.env (.step (.deleteClause (Demo.cl [1, 2]) .satisfied)) {}) = some .panic := by
  decide +kernel

end Varisat
