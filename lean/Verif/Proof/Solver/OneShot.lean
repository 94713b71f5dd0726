import Verif.Props.C58_ProofShape
import Verif.Proof.Solver.JointRun
import Verif.Proof.Solver.NoAsm
/-! DRAT output knows all steps of a history without assumptions and without clauses added after `solve`. -/
namespace Varisat.Out

variable {env : Env} {f : Option Format} {check : Bool}

theorem restOf_mem {st : ProofStep} (hn : ∀ c, st ≠ .addClause c) : ∀ {P : List ProofStep}, st ∈ P → st ∈ Checker.restOf P
  | x :: P, q => by
    rcases List.mem_cons.1 q with rfl | q
    · cases st <;> first | exact absurd rfl (hn _) | exact List.mem_cons_self
    · have := restOf_mem hn q
      cases x <;> first | exact this | exact List.mem_cons_of_mem _ this

/-- A step of the log that was not left out of a DRAT file is one that DRAT knows. -/
theorem Follows.known {P log : List ProofStep} {o : Sess} (h : Follows env f check P log o) (he : o.error = none) (hf : IsDrat f)
    {st : ProofStep} (hst : st ∈ log) (hn : ∀ c, st ≠ .addClause c) : Drat.steps st ≠ none := by
  have hk := (h.keep he).1
  have hf' : IsDrat o.proof.format := by rw [hk]; exact hf
  obtain ⟨Q, q1, q2⟩ := h.file hf'.isSome
  obtain ⟨r1, r2⟩ := h.raw hf'
  have hm : st ∈ Checker.restOf P ++ Q := by
    rw [q1] at hst
    rcases List.mem_append.1 hst with q | q
    · exact List.mem_append_left _ (restOf_mem hn q)
    · exact List.mem_append_right _ q
  have := r2 st (by rw [r1, q2]; exact hm)
  intro h
  rw [h] at this; cases this

end Varisat.Out

namespace Varisat.Solver
open Api (Hist OneShot)
open Out (Unwritable IsDrat)

variable {α : Type} [LinearOrder α] {env : Out.Env} {f : Option Out.Format} {check : Bool}

theorem _root_.Varisat.Api.OneShot.left {h k : Hist} (ho : OneShot (h ++ k)) : OneShot h :=
  ⟨fun x hx => ho.1 x (by simp [hx]), (List.pairwise_append.1 ho.2).1⟩

theorem _root_.Varisat.Api.OneShot.noAsm {h : Hist} (ho : OneShot h) : NoAsm h := fun x hx ls hl => absurd hl (ho.1 x hx ls)

theorem prepares_steps {st : ProofStep} (h : st.Prepares) : Drat.steps st ≠ none := by
  cases st <;> first | exact absurd h id | simp [Drat.steps]

theorem derives_steps {st : ProofStep} (h : st.Derives) : Drat.steps st ≠ none := by
  cases st <;> first | exact absurd h id | simp [Drat.steps]

theorem oneShot_writable {s s' : St α} {h : Hist} {op : Op} {r : List Nat} {e : Env α} (x : Exec s h) (he : e.Ok) (hs : s.step e op = .ok (s', r))
    (ho : OneShot (h ++ [(op.call, r)])) {inv : Bool} (hinv : inv = false ↔ NoSolve h) {L : List ProofStep}
    (hL : s'.log = s.log ++ L) : ∀ st ∈ L, ¬ Unwritable (inv || op.isSolve) st := by
  rintro st hst ⟨h1, h2⟩
  obtain ⟨M, hM, hP⟩ := C58.part x hs
  obtain rfl : L = M := List.append_cancel_left (hL.symm.trans hM)
  have hfail : ∀ c hs', st ≠ .failedAssumptions c hs' := by
    rintro c hs' rfl
    exact (Exec.call e x he hs).notFailed ho.noAsm c hs' (by rw [hL]; simp [hst])
  have hpre : ∀ {st : ProofStep}, Drat.steps st = none → ¬ st.Prepares := fun h k => prepares_steps k h
  cases op with
  | addClause c =>
    rcases hP with ⟨A, c', B, rfl, hp⟩ | ⟨rfl, -⟩
    · have hst' : st ∈ A ++ B ∨ st = .addClause c' := by
        rcases List.mem_append.1 hst with q | q
        · exact .inl (by simp [q])
        · rcases List.mem_cons.1 q with q | q
          · exact .inr q
          · exact .inl (by simp [q])
      rcases hst' with q | rfl
      · exact hpre h1 (hp st q)
      · cases hi : inv with
        | false =>
          rw [hi] at h2
          exact h2 rfl c' rfl
        | true =>
          have hns : ¬ NoSolve h := fun k => by rw [hinv.2 k] at hi; cases hi
          apply hns
          intro y hy hys
          exact (List.pairwise_append.1 ho.2).2.2 y hy _ (List.mem_singleton.2 rfl) hys c rfl
    · cases hst
  | solve n =>
    rcases hP with ⟨-, -, rfl⟩ | ⟨-, -, D, m, rfl, k⟩ | ⟨-, rfl⟩ | ⟨-, k, -⟩ | ⟨-, D, core, hs', rfl, k⟩
    · cases hst
    · rcases List.mem_append.1 hst with q | q
      · exact derives_steps (k st q) h1
      · rw [List.mem_singleton.1 q] at h1; cases h1
    · cases hst
    · exact derives_steps (k st hst) h1
    · rcases List.mem_append.1 hst with q | q
      · exact derives_steps (k st q) h1
      · exact hfail _ _ (List.mem_singleton.1 q)
  | assume ls => exact ho.1 (Op.call (.assume ls), r) (by simp) ls rfl
  | hideVar u =>
    rcases hP st hst with q | ⟨v, rfl⟩
    · exact hpre h1 q
    · cases h1
  | newVar => exact hpre h1 (hP st hst)
  | witnessVar u => exact hpre h1 (hP st hst)
  | sampleVar u => exact hpre h1 (hP st hst)
  | observe => exact hpre h1 (hP st hst)

end Varisat.Solver
