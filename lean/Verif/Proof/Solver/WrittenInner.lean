import Verif.Proof.Solver.SolveUser
import Verif.Proof.Solver.WrittenFile
import Verif.Proof.CliProof
/-!
# The steps of the proof written for the first `solve`

If no variables were hidden before, they add no clauses and delete no variables.
-/
namespace Varisat.Solver
open Checker (restOf Accepting)
open Api (Hist added Plain)
open Fmt (writeStep)

variable {α : Type} [LinearOrder α] {env : Out.Env} {check : Bool}

theorem restOf_noAdd {c : List Lit} : ∀ {L : List ProofStep}, ProofStep.addClause c ∉ restOf L
  | [] => by simp [restOf]
  | x :: L => by
    by_cases hx : ∃ d, x = .addClause d
    · obtain ⟨d, rfl⟩ := hx
      exact restOf_noAdd (L := L)
    · have e : restOf (x :: L) = x :: restOf L := by
        cases x <;> first | rfl | exact absurd ⟨_, rfl⟩ hx
      rw [e, List.mem_cons, not_or]
      exact ⟨fun h => hx ⟨c, h.symm⟩, restOf_noAdd⟩

/-- Before the first `solve` all variables are those of the user. -/
theorem Exec.allUser {s : St α} {h : Hist} (x : Exec s h) (hns : NoSolve h) (hp : Plain h) (hlen : s.vars.gfs.len < 2 ^ 32) :
    AllUser s.vars := by
  obtain ⟨a, ids, -, hi⟩ := x.inv
  obtain ⟨i1, -⟩ := x.tells hns hp hlen
  intro v g hv
  obtain ⟨d, hd, hd'⟩ := hi.b.v.slive v g hv
  rw [(hi.b.v.us g g).1 (i1.live g d hd hd').1]
  rfl

theorem cut_deleteVar {x : ProofStep} {b v : Nat} (h : .deleteVar v = x.cut b) : x = .deleteVar v := by
  cases x <;> simp [ProofStep.cut] at h ⊢
  exact h.symm

theorem readSteps_written (fill : Nat → Nat) (rest : Bytes) : ∀ {ws : List ProofStep}, (∀ st ∈ ws, StepFits st) →
    readSteps fill (ws.length + 1) (ws.flatMap writeStep ++ (writeStep .end_ ++ rest)) = .ok (ws ++ [.end_], rest)
  | [], _ => by
    have hp : Fmt.parseStep fill (List.flatMap writeStep [] ++ (writeStep .end_ ++ rest)) = .ok (.end_, rest) :=
      C11.step_roundtrip fill .end_ trivial rest
    simp only [List.length_nil, readSteps, hp, List.nil_append]
  | st :: ws, hf => by
    have hp : Fmt.parseStep fill ((st :: ws).flatMap writeStep ++ (writeStep .end_ ++ rest)) =
        .ok (st, ws.flatMap writeStep ++ (writeStep .end_ ++ rest)) := by
      rw [List.flatMap_cons, List.append_assoc]
      exact C11.step_roundtrip fill st (hf st (by simp)) _
    have ih := readSteps_written fill rest (ws := ws) fun x hx => hf x (by simp [hx])
    rw [List.length_cons, readSteps, hp]
    simp only [ih, List.cons_append]

theorem written_inner (ha : Accepting env.chk) {s : St α} {o o' : Out.Sess} {h : Hist} {r : Nat}
    (x : Joint env (some .varisat) check s o (h ++ [(.solve, [r])])) (hno : NoSolve h) (l : Limits (some .varisat) s)
    (hp : Plain h) (hfit : ∀ st ∈ s.log, StepFits st) (hc : Out.close env o = some (o', .unit)) :
    ∃ given w, o'.files = o.files ++ [⟨.varisat, given, w⟩] ∧ ∃ w0, ProofStep.end_ ∉ w0 ∧ (∀ c, ProofStep.addClause c ∉ w0) ∧
      (∀ v, ProofStep.deleteVar v ∉ w0) ∧
      ∀ fill, ∃ rest, readSteps fill (w0.length + 1) (w.flatMap writeStep) = .ok (w0 ++ [.end_], rest) := by
  generalize hH : h ++ [(.solve, [r])] = H at x
  cases x with
  | new e => simp at hH
  | @call s1 _ o1 _ h1 op r1 e x he hs =>
    obtain ⟨rfl, e2⟩ := List.append_inj' hH rfl
    simp only [List.cons.injEq, and_true, Prod.mk.injEq] at e2
    obtain ⟨e2, rfl⟩ := e2
    obtain ⟨n, rfl⟩ := Op.call_solve.1 e2.symm
    have hstep := St.step_of_joint hs
    have l1 := l.of_step x.exec hstep
    obtain ⟨i1, i2, s0, -, i4, -⟩ := x.follows ha l1
    have i4 : Out.Follows env (some .varisat) check s1.log s1.log o1 := by
      rw [i4.early (i2.2 hno)] at i4
      exact i4
    have hF : Out.Follows env (some .varisat) check s1.log s.log o := by
      rcases joint_step ha x.exec he hstep l i4 i1 with ⟨e1, -⟩ | ⟨o2, er, e1, -, -, e3, -⟩
      · rw [hs] at e1; cases e1
      rw [hs] at e1
      obtain ⟨rfl, rfl⟩ : o = o2 ∧ none = er := by
        simpa [Except.ok.injEq, Prod.mk.injEq] using e1
      exact (e3 ⟨n, rfl⟩ rfl).2.1
    obtain ⟨Q, w, q1, q2, q3⟩ := Out.close_file hF rfl (l.net rfl _ (List.prefix_refl _)) hc
    refine ⟨_, w, q2, ?_⟩
    obtain ⟨-, t2, -, -⟩ := x.exec.tells hno hp l1.vars
    have hQ : ∀ st ∈ Q, Inner st := by
      have hs' : ∃ b, s1.solve e n = .ok (s, b) := by
        simp only [St.step] at hstep
        obtain ⟨⟨t, b⟩, k1, k2⟩ := bind_inv hstep
        cases k2
        exact ⟨b, k1⟩
      obtain ⟨b, hs'⟩ := hs'
      obtain ⟨L, k1, k2⟩ := (St.solve_keeps hs').log (x.exec.allUser hno hp l1.vars)
      rw [q1] at k1
      rw [List.append_cancel_left k1]
      exact k2
    have hin : ∀ st ∈ restOf s1.log ++ Q, Inner st := by
      intro st hst
      rcases List.mem_append.1 hst with hst | hst
      · rcases t2 st (Checker.mem_restOf hst) with k | ⟨c, rfl⟩
        · cases st <;> first | trivial | exact k
        · exact absurd hst restOf_noAdd
      · exact hQ st hst
    obtain ⟨a, ids, -, hi, htr⟩ := (Exec.call e x.exec he hstep).tracked l.vars
    obtain ⟨V, hV, -⟩ := htr.view
    have hV := hV.full l.fine
    have hsub : ∀ st ∈ restOf s1.log ++ Q, st ∈ s.log := by
      intro st hst
      rw [q1]
      rcases List.mem_append.1 hst with hst | hst
      · exact List.mem_append_left _ (Checker.mem_restOf hst)
      · exact List.mem_append_right _ hst
    have hnoend : ProofStep.end_ ∉ restOf s1.log ++ Q := fun hm => ((Checker.shown_iff.1 hV).1.noEnd) (hsub _ hm)
    obtain ⟨w0, w1, rfl, hi0⟩ := Checker.inStep_end q3.step
    have hrange : ∀ b', .changeHashBits b' ∈ w0 → b' ≤ 64 := fun b' hm => (q3.range b' (by simp [hm])).2.1
    have hf := Checker.inStep_fits hi0 (fun st hst => hfit st (hsub st hst)) hrange
    refine ⟨w0, Checker.inStep_noEnd hi0 hnoend, fun c hm => ?_, fun v hm => ?_, fun fill => ⟨w1.flatMap writeStep, ?_⟩⟩
    · rcases Checker.inStep_mem hi0 _ hm with ⟨b, k⟩ | ⟨y, y1, b, y2⟩
      · cases k
      · rw [Checker.cut_add y2] at y1
        exact hin _ y1
    · rcases Checker.inStep_mem hi0 _ hm with ⟨b, k⟩ | ⟨y, y1, b, y2⟩
      · cases k
      · rw [cut_deleteVar y2] at y1
        exact hin _ y1
    · rw [List.flatMap_append, List.flatMap_cons]
      exact readSteps_written fill _ hf

end Varisat.Solver
