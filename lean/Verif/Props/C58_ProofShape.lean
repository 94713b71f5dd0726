import Verif.Spec.ProofShape
import Verif.Proof.Solver.SolveLog
import Verif.Proof.Solver.Says
import Verif.Proof.Solver.ModelOk
import Verif.Proof.Solver.Sample
/-!
# C58: the parts of a proof

The steps emitted by the solver are, for every call in order, the steps of that call: `add_clause` contributes one
clause, unless the formula is already known to be unsatisfiable; a `solve` that finds a model contributes a derivation and
the model, one that fails contributes a derivation and, unless the formula itself is unsatisfiable, the failed
assumptions; `assume` contributes the assumptions and the other calls contribute names only. This is for all calls and all results, with hidden variables.
-/
namespace Varisat.Solver
open Api (Hist Part Shape newModels found added)

variable {α : Type} [LinearOrder α]

theorem readies_prepares {st : ProofStep} (h : Readies false false st) : st.Prepares := by
  rcases h with (h | ⟨h, _⟩) | ⟨h, _⟩
  · cases st with
    | deleteClause c r => cases r <;> first | trivial | exact absurd h.1 id
    | userVarName | solverVarName | changeSamplingMode => trivial
    | assumptions => cases h.2
    | _ => exact absurd h.1 id
  · cases h
  · cases h

theorem derives_derives {st : ProofStep} (h : Derives st) : st.Derives := by
  cases st with
  | solverVarName g o => cases o <;> first | trivial | exact absurd h id
  | atClause | unitClauses | deleteClause | deleteVar => trivial
  | _ => exact absurd h id

theorem C58.part {s s' : St α} {h : Hist} {op : Op} {r : List Nat} {e : Env α} (x : Exec s h) (hs : s.step e op = .ok (s', r)) :
    ∃ M, s'.log = s.log ++ M ∧ Part h (op.call, r) M := by
  obtain ⟨a, ids, hr, hi⟩ := x.inv
  have other : ∀ (d : Bool), Says false d s s' → ∃ M, s'.log = s.log ++ M ∧ ∀ st ∈ M, st.Prepares ∨ d = true ∧ ∃ v, st = .deleteVar v := by
    rintro d ⟨L, h1, h2⟩
    refine ⟨L, h1, fun st hst => ?_⟩
    rcases h2 st hst with q | q
    · exact .inl (readies_prepares (.inl q))
    · exact .inr q
  have plain : Says false false s s' → ∃ M, s'.log = s.log ++ M ∧ ∀ st ∈ M, st.Prepares := by
    intro k
    obtain ⟨M, h1, h2⟩ := other false k
    exact ⟨M, h1, fun st hst => (h2 st hst).resolve_right (fun q => by cases q.1)⟩
  cases op with
  | addClause c =>
    obtain ⟨t, h1, h2⟩ := bind_inv (show (s.loadClause e c >>= fun q => pure (q, [])) = .ok (s', r) from hs)
    cases h2
    rcases St.loadClause_says h1 with ⟨k1, k2⟩ | ⟨-, t, c', ⟨A, k1, k2⟩, ⟨B, k3, k4⟩⟩
    · exact ⟨[], by simpa using k2, .inr ⟨rfl, a, hr, (hi.unsat k1).1⟩⟩
    · refine ⟨A ++ .addClause c' :: B, ?_, .inl ⟨A, c', B, rfl, fun st hst => ?_⟩⟩
      · rw [k3]
        show t.log ++ [.addClause c'] ++ B = _
        rw [k1]; simp
      · rcases List.mem_append.1 hst with q | q
        · exact readies_prepares (k2 st q)
        · exact readies_prepares (k4 st q)
  | solve n =>
    obtain ⟨b, h1, rfl⟩ := solve_step hs
    obtain ⟨l1, l2, l3⟩ := St.solve_logs h1
    have hi' : Inv a ids s' ∧ s'.sat ≠ .unknown := by
      rcases hi.solve e n with k | ⟨t, b', k, k2, k3, -⟩
      · rw [k] at h1; cases h1
      · rw [k] at h1
        cases h1
        exact ⟨k2, k3⟩
    have hf := x.found_iff
    by_cases hu : s.sat = .unknown
    · have key := l2 hu
      have hnf : found h = false := by
        cases hq : found h with
        | false => rfl
        | true => rw [hf.2 hq] at hu; cases hu
      unfold St.Answer at key
      cases hsat : s'.sat <;> rw [hsat] at key l3 <;> simp only at key l3
      · exact absurd hsat hi'.2
      · obtain ⟨L, y, m1, m2, ⟨b', rfl⟩⟩ := key
        refine ⟨L ++ [.model b'], by rw [m1, List.append_assoc], .inr (.inl ⟨?_, hnf, L, b', rfl, fun st hst => derives_derives (m2 st hst)⟩)⟩
        simp [l3]
      · obtain ⟨L, m1, m2⟩ := key
        refine ⟨L, m1, .inr (.inr (.inr (.inl ⟨?_, fun st hst => derives_derives (m2 st hst), a, hr, (hi'.1.unsat hsat).1⟩)))⟩
        simp [l3]
      · obtain ⟨L, y, m1, m2, ⟨c', hs', rfl⟩⟩ := key
        refine ⟨L ++ [.failedAssumptions c' hs'], by rw [m1, List.append_assoc],
          .inr (.inr (.inr (.inr ⟨?_, L, c', hs', rfl, fun st hst => derives_derives (m2 st hst)⟩)))⟩
        simp [l3]
    · obtain ⟨m1, m2⟩ := l1 hu
      refine ⟨[], by simpa using m1, ?_⟩
      by_cases hsat : s.sat = .sat
      · exact .inl ⟨by simp [l3, m2, hsat], hf.1 hsat, rfl⟩
      · exact .inr (.inr (.inl ⟨by simp [l3, m2, hsat], rfl⟩))
  | newVar => exact plain (St.step_says hs (fun n h => by cases h) (fun n h => by cases h) (fun ⟨c, h⟩ => by cases h) (fun ⟨c, h⟩ => by cases h))
  | assume ls =>
    obtain ⟨t, h1, h2⟩ := bind_inv (show (s.assume e ls >>= fun q => pure (q, [])) = .ok (s', r) from hs)
    cases h2
    obtain ⟨u, c, ⟨L, k1, k2⟩, rfl, -⟩ := St.assume_says (a := false) (d := false) h1
    exact ⟨L ++ [.assumptions c], by show u.log ++ [_] = _; rw [k1, List.append_assoc], L, c, rfl, fun st hst => readies_prepares (k2 st hst)⟩
  | witnessVar u => exact plain (St.step_says hs (fun n h => by cases h) (fun n h => by cases h) (fun ⟨c, h⟩ => by cases h) (fun ⟨c, h⟩ => by cases h))
  | sampleVar u => exact plain (St.step_says hs (fun n h => by cases h) (fun n h => by cases h) (fun ⟨c, h⟩ => by cases h) (fun ⟨c, h⟩ => by cases h))
  | observe => exact plain (St.step_says hs (fun n h => by cases h) (fun n h => by cases h) (fun ⟨c, h⟩ => by cases h) (fun ⟨c, h⟩ => by cases h))
  | hideVar u =>
    obtain ⟨M, h1, h2⟩ := other true (St.step_says hs (fun n h => by cases h) (fun n h => by cases h) (fun ⟨c, h⟩ => by cases h) (fun _ => rfl))
    exact ⟨M, h1, fun st hst => (h2 st hst).imp_right And.right⟩

/-- Every call has its part. -/
theorem C58.shape {s : St α} {h : Hist} (x : Exec s h) : Shape h s.log := by
  induction x with
  | new e => exact .nil
  | @call s s' h op r e x he hs ih =>
    obtain ⟨M, h1, h2⟩ := C58.part x hs
    rw [h1]
    exact .call ih h2

/-- One for a `solve` that finds a new model. -/
def fresh (h : Hist) (y : Api.Call × List Nat) : Nat := match y.1 with
  | .solve => if y.2 = [1] ∧ found h = false then 1 else 0
  | _ => 0

theorem newModels_state (h : Hist) : (h.foldl (fun (b : Bool × Nat) y => match y.1 with
    | .solve => if y.2 == [1] then (true, if b.1 then b.2 else b.2 + 1) else (false, b.2)
    | .addClause _ | .assume _ => (false, b.2)
    | _ => b) (false, 0)).1 = found h := by
  induction h using List.reverseRecOn with
  | nil => rfl
  | append_singleton h y ih =>
    rw [List.foldl_append, List.foldl_cons, List.foldl_nil, found_snoc]
    obtain ⟨c, r⟩ := y
    cases c <;> simp only <;> first | exact ih | rfl | skip
    cases hr : r == [1] <;> rfl

theorem newModels_snoc (h : Hist) (y : Api.Call × List Nat) :
    newModels (h ++ [y]) = newModels h + fresh h y := by
  have := newModels_state h
  unfold newModels
  rw [List.foldl_append, List.foldl_cons, List.foldl_nil]
  generalize h.foldl _ (false, 0) = q at this ⊢
  obtain ⟨c, r⟩ := y
  cases c <;> simp [fresh]
  rw [this]
  by_cases hr : r = [1] <;> cases found h <;> simp [hr]

theorem prepares_not {st : ProofStep} (h : st.Prepares) : st.isModel = false ∧ st.isAdd = false := by
  cases st <;> first | exact ⟨rfl, rfl⟩ | exact absurd h id

theorem derives_not {st : ProofStep} (h : st.Derives) : st.isModel = false ∧ st.isAdd = false := by
  cases st <;> first | exact ⟨rfl, rfl⟩ | exact absurd h id

theorem countP_zero {p : ProofStep → Bool} {L : List ProofStep} (h : ∀ st ∈ L, p st = false) : L.countP p = 0 := by
  rw [List.countP_eq_zero]
  intro st hst
  rw [h st hst]; simp

/-- The numbers of models and clauses in a part. -/
theorem C58.part_counts {h : Hist} {y : Api.Call × List Nat} {M : List ProofStep} (k : Part h y M) :
    M.countP ProofStep.isModel = fresh h y ∧
    M.countP ProofStep.isAdd ≤ (added [y]).length ∧
    ((∃ a, Api.Abs.Run {} h a ∧ Unsat a.clauses) ∨ M.countP ProofStep.isAdd = (added [y]).length) := by
  have zero : (∀ st ∈ M, st.isModel = false ∧ st.isAdd = false) → M.countP ProofStep.isModel = 0 ∧ M.countP ProofStep.isAdd = 0 :=
    fun q => ⟨countP_zero fun st hst => (q st hst).1, countP_zero fun st hst => (q st hst).2⟩
  have snoc : ∀ {D : List ProofStep} {z : ProofStep}, M = D ++ [z] → (∀ st ∈ D, st.Derives) → z.isAdd = false →
      M.countP ProofStep.isModel = (if z.isModel then 1 else 0) ∧ M.countP ProofStep.isAdd = 0 := by
    rintro D z rfl hD hz
    rw [List.countP_append, List.countP_append, countP_zero fun st hst => (derives_not (hD st hst)).1,
      countP_zero fun st hst => (derives_not (hD st hst)).2]
    simp [List.countP_cons, hz]
  obtain ⟨c, r⟩ := y
  cases c with
  | addClause c =>
    have hone : (added [((.addClause c : Api.Call), r)]).length = 1 := rfl
    rw [hone]
    rcases k with ⟨A, c', B, rfl, hp⟩ | ⟨rfl, hu⟩
    · have hA : A.countP ProofStep.isModel = 0 ∧ A.countP ProofStep.isAdd = 0 :=
        ⟨countP_zero fun st hst => (prepares_not (hp st (by simp [hst]))).1, countP_zero fun st hst => (prepares_not (hp st (by simp [hst]))).2⟩
      have hB : B.countP ProofStep.isModel = 0 ∧ B.countP ProofStep.isAdd = 0 :=
        ⟨countP_zero fun st hst => (prepares_not (hp st (by simp [hst]))).1, countP_zero fun st hst => (prepares_not (hp st (by simp [hst]))).2⟩
      have e : (A ++ ProofStep.addClause c' :: B).countP ProofStep.isAdd = 1 := by
        rw [List.countP_append, List.countP_cons, hA.2, hB.2]; rfl
      refine ⟨?_, by rw [e], .inr e⟩
      rw [List.countP_append, List.countP_cons, hA.1, hB.1]; rfl
    · exact ⟨rfl, Nat.zero_le _, .inl hu⟩
  | solve =>
    have hzero : (added [((.solve : Api.Call), r)]).length = 0 := rfl
    rw [hzero]
    rcases k with ⟨k1, k2, rfl⟩ | ⟨k1, k2, D, m, k3, k4⟩ | ⟨k1, rfl⟩ | ⟨k1, k2, -⟩ | ⟨k1, D, core, hs, k3, k4⟩
    · exact ⟨by simp [fresh, k2], Nat.le_refl _, .inr rfl⟩
    · obtain ⟨e1, e2⟩ := snoc k3 k4 rfl
      have k1 : r = [1] := k1
      exact ⟨by rw [e1]; simp [fresh, ProofStep.isModel, k1, k2], by rw [e2], .inr e2⟩
    · have k1 : r = [0] := k1
      exact ⟨by simp [fresh, k1], Nat.le_refl _, .inr rfl⟩
    · obtain ⟨e1, e2⟩ := zero fun st hst => derives_not (k2 st hst)
      have k1 : r = [0] := k1
      exact ⟨by rw [e1]; simp [fresh, k1], by rw [e2], .inr e2⟩
    · obtain ⟨e1, e2⟩ := snoc k3 k4 rfl
      have k1 : r = [0] := k1
      exact ⟨by rw [e1]; simp [fresh, ProofStep.isModel, k1], by rw [e2], .inr e2⟩
  | hideVar u =>
    obtain ⟨e1, e2⟩ := zero fun st hst => by
      rcases k st hst with q | ⟨v, rfl⟩
      · exact prepares_not q
      · exact ⟨rfl, rfl⟩
    exact ⟨by rw [e1]; simp [fresh], by rw [e2]; exact Nat.zero_le _, .inr (by rw [e2]; rfl)⟩
  | assume ls =>
    obtain ⟨A, c, rfl, k⟩ := k
    obtain ⟨e1, e2⟩ := zero fun st hst => by
      rcases List.mem_append.1 hst with hst | hst
      · exact prepares_not (k st hst)
      · rw [List.mem_singleton.1 hst]; exact ⟨rfl, rfl⟩
    exact ⟨by rw [e1]; simp [fresh], by rw [e2]; exact Nat.zero_le _, .inr (by rw [e2]; rfl)⟩
  | newVar | witnessVar | sampleVar | observe =>
    obtain ⟨e1, e2⟩ := zero fun st hst => prepares_not (k st hst)
    exact ⟨by rw [e1]; simp [fresh], by rw [e2]; exact Nat.zero_le _, .inr (by rw [e2]; rfl)⟩

/-- The proof has a model for every `solve` that found a new one, and no other. -/
theorem C58.models {s : St α} {h : Hist} (x : Exec s h) : s.log.countP ProofStep.isModel = newModels h := by
  have : ∀ {h L}, Shape h L → L.countP ProofStep.isModel = newModels h := by
    intro h L k
    induction k with
    | nil => rfl
    | call _ p ih => rw [List.countP_append, ih, newModels_snoc, (C58.part_counts p).1]
  exact this (C58.shape x)

/-- The proof never has more clauses of the formula than were added. -/
theorem C58.clauses_le {s : St α} {h : Hist} (x : Exec s h) : s.log.countP ProofStep.isAdd ≤ (added h).length := by
  have : ∀ {h L}, Shape h L → L.countP ProofStep.isAdd ≤ (added h).length := by
    intro h L k
    induction k with
    | nil => exact Nat.le_refl _
    | call _ p ih =>
      have := (C58.part_counts p).2.1
      unfold added at *
      rw [List.countP_append, List.filterMap_append, List.length_append]
      omega
  exact this (C58.shape x)

/-- Without hidden or observed variables, every clause of a satisfiable formula is in the proof. -/
theorem C58.clauses_plain {s : St α} {h : Hist} (x : Exec s h) (hp : Api.Plain h) (hs : ¬ Unsat (added h)) :
    s.log.countP ProofStep.isAdd = (added h).length := by
  have : ∀ {h L}, Shape h L → Api.Plain h → ¬ Unsat (added h) → L.countP ProofStep.isAdd = (added h).length := by
    intro h L k
    induction k with
    | nil => intro _ _; rfl
    | @call h L y M _ p ih =>
      intro hp hs
      have e : added (h ++ [y]) = added h ++ added [y] := by unfold added; rw [List.filterMap_append]
      have hp' : Api.Plain h := fun z hz => hp z (by simp [hz])
      have hs' : ¬ Unsat (added h) := fun q => hs fun τ hτ => q τ fun c hc => hτ c (by rw [e]; simp [hc])
      have := ih hp' hs'
      rw [List.countP_append, e, List.length_append, this]
      rcases (C58.part_counts p).2.2 with ⟨a, hr, hu⟩ | q
      · rcases (PlainRun.of hr hp').clauses with q | ⟨q1, q2⟩
        · rw [q] at hu
          exact absurd hu hs'
        · exact absurd (fun τ hτ => q1 τ fun c hc => hτ c (q2 c hc)) hs'
      · rw [q]
  exact this (C58.shape x) hp hs

open Sample in
/-- A concrete case: two models, a clause that is added twice and failed assumptions. -/
example : ∃ (s : St Nat) (h : Hist), Exec s h ∧ Api.Plain h ∧ newModels h = 2 ∧ s.log.countP ProofStep.isModel = 2 ∧
    (added h).length = 3 ∧ s.log.countP ProofStep.isAdd = 3 ∧ s.log.any (fun st => match st with | .failedAssumptions _ _ => true | _ => false) = true := by
  obtain ⟨s, rs, h1, h2⟩ := see_exec (f := fun (s : St Nat) rs => (rs, s.log.countP ProofStep.isModel, s.log.countP ProofStep.isAdd,
      s.log.any (fun st => match st with | .failedAssumptions _ _ => true | _ => false)))
    (ops := [cl [1, 2], cl [-1, 3], .solve 50, .solve 50, asm [-1, -2], .solve 50, cl [1, 2], asm [], .solve 50])
    (x := ([[], [], [1], [1], [], [0], [], [], [1]], 2, 3, true)) (by decide +kernel)
  simp only [Prod.mk.injEq] at h2
  obtain ⟨rfl, k1, k2, k3⟩ := h2
  refine ⟨s, _, h1, ?_, by decide, k1, by decide, k2, k3⟩
  intro x hx
  simp [cl, asm, Op.call] at hx
  rcases hx with rfl | rfl | rfl | rfl | rfl | rfl | rfl | rfl | rfl <;> exact ⟨(fun u h => by cases h), (fun h => by cases h)⟩

end Varisat.Solver
