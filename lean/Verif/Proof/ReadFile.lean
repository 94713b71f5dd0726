import Verif.Proof.CheckerAccept3
import Verif.Proof.CheckerReorder
import Verif.Proof.CheckerOut
import Verif.Proof.ProofOut
import Verif.Props.C11_ProofFormat
/-! Reading a written proof file: the checker executes the steps it was written for. -/
namespace Varisat.Checker
open Fmt

theorem rendered_adds (C : List (List Lit)) : Rendered (C.map .addClause) 64 (C.map .add) := by
  suffices ∀ (C : List (List Lit)) {log b ops}, Rendered log b ops → Rendered (log ++ C.map .addClause) b (ops ++ C.map .add) from
    this C .nil
  intro C
  induction C with
  | nil => intro log b ops h; simpa using h
  | cons c C ih =>
    intro log b ops h
    have := ih (Rendered.add c h)
    simpa using this

/-- A reader that has followed the announcements. -/
theorem Rendered.follow : ∀ {w G : List ProofStep} {log : List ProofStep} {b : Nat} {ops : List Op}, Rendered log b ops → InStep b G w →
    (∀ b', .changeHashBits b' ∈ w → 1 ≤ b' ∧ b' ≤ 64) → Rendered (log ++ G) (told b w) (ops ++ w.map .step)
  | [], G, log, b, ops, h, hi, _ => by
    cases G with
    | nil => simpa [told] using h
    | cons _ _ => exact absurd hi (by simp [InStep])
  | x :: w, G, log, b, ops, h, hi, hb => by
    by_cases hx : ∃ b', x = .changeHashBits b'
    · obtain ⟨b', rfl⟩ := hx
      have hr := hb b' (by simp)
      have hi : InStep b' G w := by
        cases G <;> exact hi
      have := Rendered.follow (Rendered.bits b' h hr.1 hr.2) hi (fun b'' hm => hb b'' (by simp [hm]))
      rw [List.map_cons, List.append_cons]
      exact this
    · have hbit : x.isBits = false := by
        cases x <;> first | rfl | exact absurd ⟨_, rfl⟩ hx
      cases G with
      | nil => exact ((InStep.nil_cons hbit).1 hi).elim
      | cons st G =>
        obtain ⟨h1, h2⟩ := (InStep.cons hbit).1 hi
        have := Rendered.follow (Rendered.step st h) h2 (fun b'' hm => hb b'' (by simp [hm]))
        rw [Out.mapHashes_cut, ← h1] at this
        have ht : told b (x :: w) = told b w := by
          cases x <;> first | rfl | exact absurd ⟨_, rfl⟩ hx
        rw [ht]
        simpa using this

/-- The end marker of a file. -/
theorem inStep_end : ∀ {w G : List ProofStep} {b : Nat}, InStep b (G ++ [.end_]) w →
    ∃ w0 w1, w = w0 ++ .end_ :: w1 ∧ InStep b G w0
  | [], G, b, h => by cases G <;> exact absurd h (by simp [InStep])
  | x :: w, G, b, h => by
    by_cases hx : ∃ b', x = .changeHashBits b'
    · obtain ⟨b', rfl⟩ := hx
      have h : InStep b' (G ++ [.end_]) w := by
        cases G <;> exact h
      obtain ⟨w0, w1, rfl, h2⟩ := inStep_end h
      exact ⟨.changeHashBits b' :: w0, w1, rfl, by cases G <;> exact h2⟩
    · have hbit : x.isBits = false := by
        cases x <;> first | rfl | exact absurd ⟨_, rfl⟩ hx
      cases G with
      | nil =>
        obtain ⟨h1, h2⟩ := (InStep.cons hbit).1 h
        exact ⟨[], w, by rw [h1]; rfl, trivial⟩
      | cons st G =>
        obtain ⟨h1, h2⟩ := (InStep.cons hbit).1 h
        obtain ⟨w0, w1, rfl, h3⟩ := inStep_end h2
        exact ⟨x :: w0, w1, rfl, (InStep.cons hbit).2 ⟨h1, h3⟩⟩

theorem inStep_noEnd : ∀ {w G : List ProofStep} {b : Nat}, InStep b G w → ProofStep.end_ ∉ G → ProofStep.end_ ∉ w
  | [], _, _, _, _ => by simp
  | x :: w, G, b, h, hG => by
    by_cases hx : ∃ b', x = .changeHashBits b'
    · obtain ⟨b', rfl⟩ := hx
      have h : InStep b' G w := by cases G <;> exact h
      have := inStep_noEnd h hG
      simpa using this
    · have hbit : x.isBits = false := by
        cases x <;> first | rfl | exact absurd ⟨_, rfl⟩ hx
      cases G with
      | nil => exact ((InStep.nil_cons hbit).1 h).elim
      | cons st G =>
        obtain ⟨h1, h2⟩ := (InStep.cons hbit).1 h
        simp only [List.mem_cons, not_or] at hG ⊢
        refine ⟨fun he => hG.1 ?_, inStep_noEnd h2 hG.2⟩
        rw [← he] at h1
        cases st <;> first | rfl | cases h1

/-- The loop of `check_proof` on written steps. -/
theorem checkLoop_written {env : Env} (fill : Nat → Nat) (rest : Bytes) : ∀ {ws : List ProofStep} {s K : St}, (∀ st ∈ ws, StepFits st) →
    ProofStep.end_ ∉ ws → s.ended = false → execs env (ws.map .step) s = .ok () K →
    checkLoop env fill (ws.flatMap writeStep ++ (writeStep .end_ ++ rest)) s = .ok () { K with step := K.step + 1, ended := true }
  | [], s, K, _, _, he, hx => by
    cases hx
    have hp : parseStep fill (List.flatMap writeStep [] ++ (writeStep .end_ ++ rest)) = .ok (.end_, rest) :=
      C11.step_roundtrip fill .end_ trivial rest
    rw [checkLoop, if_neg (by rw [he]; simp)]
    simp only
    split
    · rename_i h; rw [hp] at h; cases h
    · rename_i h; rw [hp] at h; cases h
    · rename_i st r h
      rw [hp] at h
      cases h
      show checkLoop env fill rest { s with step := s.step + 1, ended := true } = _
      rw [checkLoop, if_pos rfl]
  | st :: ws, s, K, hf, hn, he, hx => by
    have hst : StepFits st := hf st (by simp)
    simp only [List.mem_cons, not_or] at hn
    have hx : (match Op.exec env (.step st) s with
        | .ok _ t1 => execs env (ws.map .step) t1
        | .error e t1 => .error e t1) = .ok () K := by
      rw [← hx]
      show _ = EStateM.bind (Op.exec env (.step st)) (fun _ => execs env (ws.map .step)) s
      unfold EStateM.bind
      cases Op.exec env (.step st) s <;> rfl
    cases ho : Op.exec env (.step st) s with
    | error e t => rw [ho] at hx; cases hx
    | ok u t =>
      rw [ho] at hx
      simp only at hx
      have ho : checkStep env st { s with step := s.step + 1 } = .ok () t := ho
      have hfr := pres_step env st (fun h => hn.1 h.symm) { s with step := s.step + 1 }
      rw [ho] at hfr
      have ih := checkLoop_written fill rest (fun x hx => hf x (by simp [hx])) hn.2 (hfr.ended.trans he) hx
      have hp : parseStep fill (List.flatMap writeStep (st :: ws) ++ (writeStep .end_ ++ rest)) =
          .ok (st, ws.flatMap writeStep ++ (writeStep .end_ ++ rest)) := by
        rw [List.flatMap_cons, List.append_assoc]
        exact C11.step_roundtrip fill st hst _
      rw [checkLoop, if_neg (by rw [he]; simp)]
      simp only
      split
      · rename_i h; rw [hp] at h; cases h
      · rename_i h; rw [hp] at h; cases h
      · rename_i st' r h
        rw [hp] at h
        cases h
        rw [ho]
        exact ih

end Varisat.Checker
