import Verif.Props.C13_CheckerSound
/-!
# C20, C21: ids and justifications handed to proof processors
-/
namespace Varisat
open Checker
open Demo (accepted)

/-- The id a step introduces (`processing.rs:53-115`). -/
def newId : CheckedStep → Option Nat
  | .addClause id _ | .duplicatedClause id _ _ | .tautologicalClause id _ | .atClause id _ _ _ => some id
  | _ => none

theorem run_ids {strict : Prop} {d d' : Replay.Db} {ss : List CheckedStep} (h : Replay.Run strict d ss d') :
    (ss.filterMap newId).Pairwise (· < ·) ∧ (∀ i ∈ ss.filterMap newId, d.next ≤ i ∧ i < d'.next) ∧ d.next ≤ d'.next := by
  induction h with
  | nil => simp
  | snoc d' d'' ss s h hs ih =>
    obtain ⟨h1, h2, h3⟩ := ih
    have key : (∀ i, newId s = some i → d'.next ≤ i ∧ d''.next = i + 1) ∧ (newId s = none → d''.next = d'.next) := by
      cases hs <;> simp [newId] <;> assumption
    rw [List.filterMap_append]
    cases hn : newId s with
    | none =>
      have : List.filterMap newId [s] = [] := by simp [hn]
      rw [this, List.append_nil, key.2 hn]
      exact ⟨h1, h2, h3⟩
    | some i =>
      have : List.filterMap newId [s] = [i] := by simp [hn]
      rw [this]
      obtain ⟨h4, h5⟩ := key.1 i hn
      refine ⟨?_, ?_, by omega⟩
      · rw [List.pairwise_append]
        refine ⟨h1, by simp, ?_⟩
        intro j hj k hk
        simp only [List.mem_singleton] at hk
        subst hk
        have := (h2 j hj).2; omega
      · intro j hj
        rcases List.mem_append.1 hj with hj | hj
        · have := h2 j hj; omega
        · simp only [List.mem_singleton] at hj; omega

/-- **C21**: the steps handed to processors in an accepted history can be replayed by an independent
checker that only knows clause ids (`Spec/Replay.lean`): new ids are fresh; each derived clause comes with
ids of live clauses forming a unit propagation refutation of its negation, in order; failed assumptions
likewise; deletions name live clauses with their literals; without variable deletions each deletion of an
irredundant clause is justified by a live clause other than itself. -/
theorem C21.replay (env : Env) (hp : env.hasProc = true) (ops : List Op) (s : St)
    (h : execs env ops {} = .ok () s) : ∃ d, Replay.Run (NoDeleteVar ops) {} s.out d := by
  obtain ⟨d, hd, -⟩ := rep_execs (A := []) hp Core.init (by simp [SSorted]) (by decide) id
    (Rep.init (NoDeleteVar ops)) h
  exact ⟨d, hd⟩

example : accepted (execs Demo.env Demo.refutation {}) = true ∧
    CheckedStep.atClause 4 false (Demo.cl [1]) [0, 1] ∈ (Demo.final (execs Demo.env Demo.refutation {})).out ∧
    CheckedStep.deleteAtClause 0 false (Demo.cl [1, 2]) [4] ∈ (Demo.final (execs Demo.env Demo.refutation {})).out := by
  decide +kernel

/-- **C21** for `check_proof`, including the empty clause derived from contradicting units at the end. -/
theorem C21.check_proof_replay (env : Env) (hp : env.hasProc = true) (fill : Nat → Nat) (ops : List Op)
    (bs : Bytes) (s0 s : St) (h0 : execs env ops {} = .ok () s0) (hend : s0.ended = false)
    (h : checkProof env fill bs s0 = .ok () s)
    (hn : NoDeleteVar ops) (hn' : ∀ sts rest v, readSteps fill (sts.length + 1) bs = .ok (sts ++ [.end_], rest) →
      ProofStep.end_ ∉ sts → ProofStep.deleteVar v ∉ sts) :
    ∃ d, Replay.Run True {} s.out d := by
  obtain ⟨sts, rest, s1, h1, h2, h3, h4⟩ := checkProof_ok hend h
  have hex : execs env (ops ++ (sts ++ [ProofStep.end_]).map Op.step) {} = .ok () s1 :=
    execs_append.2 ⟨s0, h0, h3⟩
  have hnd : NoDeleteVar (ops ++ (sts ++ [ProofStep.end_]).map Op.step) := by
    intro v hv
    rcases List.mem_append.1 hv with hv | hv
    · exact hn v hv
    · simp only [List.mem_map, List.mem_append, List.mem_singleton, Op.step.injEq] at hv
      obtain ⟨st, hst, rfl⟩ := hv
      rcases hst with hst | hst
      · exact hn' sts rest v h1 h2 hst
      · simp at hst
  obtain ⟨d, hd, hl⟩ := rep_execs (A := []) (strict := True) hp Core.init (by simp [SSorted]) (by decide)
    (fun _ => hnd) (Rep.init True) hex
  have h4 : (match s1.unitConflict with
    | some (a, b) => emit env (.atClause s1.nextId false [] [a, b])
    | none => pure ()) s1 = .ok () s := h4
  cases hc : s1.unitConflict with
  | none =>
    rw [hc] at h4
    have h4 : (EStateM.Result.ok () s1 : EStateM.Result Err St Unit) = .ok () s := h4
    simp only [EStateM.Result.ok.injEq, true_and] at h4
    subst h4
    exact ⟨d, hd⟩
  | some x =>
    obtain ⟨a, b⟩ := x
    rw [hc] at h4
    simp only at h4
    have hw : wp (emit env (.atClause s1.nextId false [] [a, b]))
        (fun _ s' => s'.out = s1.out ++ [.atClause s1.nextId false [] [a, b]]) (fun _ _ => True) s1 :=
      wp_emit (fun _ => rfl) (fun _ _ _ => trivial)
    have hout := wp_ok hw h4
    obtain ⟨l, h5, h6⟩ := hl.conf trivial a b hc
    refine ⟨_, run_snoc hd hout (.rup d _ _ _ _ (Nat.le_of_eq hl.next) ?_)⟩
    refine ⟨[[l.neg], [l]], .cons h5 (.cons h6 .nil), ?_⟩
    refine ⟨l.neg, by simp, by simp, by simp, ?_, ?_⟩
    · intro m hm hne; simp only [List.mem_singleton] at hm; exact absurd hm hne
    · intro m hm
      simp only [List.mem_singleton] at hm
      subst hm
      simp

/-- A proof file whose refutation is found from contradicting unit clauses. -/
example : ∃ s0, execs Demo.env [.add (Demo.cl [1]), .add (Demo.cl [-1])] {} = .ok () s0 ∧ s0.ended = false ∧
    accepted (checkProof Demo.env (fun _ => 3) (Fmt.writeStep .end_) s0) = true ∧
    (Demo.final (checkProof Demo.env (fun _ => 3) (Fmt.writeStep .end_) s0)).out =
      [.addClause 0 (Demo.cl [1]), .addClause 1 (Demo.cl [-1]), .atClause 2 false [] [0, 1]] := by
  refine ⟨_, Demo.final_ok (by decide +kernel), by decide +kernel, by decide +kernel, by decide +kernel⟩

/-- A justification of a derived clause, spelled out. -/
theorem C21.propagations_valid (env : Env) (hp : env.hasProc = true) (ops : List Op) (s s' : St)
    (h : execs env ops {} = .ok () s) (red : Bool) (c : List Lit) (hashes : List Nat)
    (ha : Op.exec env (.step (.atClause red c hashes)) s = .ok () s') (id : Nat) (r : Bool) (c' : List Lit)
    (ps : List Nat) (ho : s'.out = s.out ++ [.atClause id r c' ps]) :
    (∀ l, l ∈ c' ↔ l ∈ c) ∧ ∃ cls, List.Forall₂ (fun i d =>
        (∃ b ∈ s.clauses, ∃ k ∈ b.2, k.id = i ∧ k.lits.slice s.buffer = d) ∨
        (∃ v val, s.units v = some ⟨.global i, val⟩ ∧ d = [Lit.mk' v val])) ps cls ∧
      RupChain Lit.neg (c'.map Lit.neg) cls := by
  have hr := (ran_execs (Ran.init (env := env)) h).core
  have he : AtEff env red c _ s' := op_ok hr.pre ha
  obtain ⟨s0, s1, s2, id', res, ids, hq, hre, htr, hst, hs2, hq2⟩ := he.run
  have hout : s2.out = s.out := by
    have : s2.out = s1.out := by rw [hs2]; split <;> rfl
    rw [this, hst.out, hq.out, List.append_nil]
  have hq2o := hq2.out
  rw [hout, ho] at hq2o
  have hq2o := List.append_cancel_left hq2o
  cases res with
  | duplicate => simp at hq2o
  | newlyIrredundant => simp at hq2o
  | new =>
    simp only [List.cons.injEq, CheckedStep.atClause.injEq, and_true] at hq2o
    obtain ⟨-, -, rfl, rfl⟩ := hq2o
    refine ⟨fun l => mem_canonical, ?_⟩
    rw [htr hp]
    obtain ⟨cls, h1, h2⟩ := hre
    refine ⟨cls, h1.imp ?_, h2⟩
    rintro i d (⟨e, he, h3, h4⟩ | hu)
    · left
      obtain ⟨k, hk, rfl⟩ := List.mem_map.1 he
      obtain ⟨b, hb, hkb⟩ := mem_flat.1 hk
      exact ⟨b, hb, k, hkb, h3, h4⟩
    · exact Or.inr hu

/-- With variable deletions the final step can cite a deleted clause: the code never clears the recorded
unit conflict. -/
theorem C21.conflict_cites_deleted_unit : ∃ s0, execs Demo.env [.add (Demo.cl [1]), .add (Demo.cl [-1]),
      .step (.deleteVar 0)] {} = .ok () s0 ∧
    accepted (checkProof Demo.env (fun _ => 3) (Fmt.writeStep .end_) s0) = true ∧
    (Demo.final (checkProof Demo.env (fun _ => 3) (Fmt.writeStep .end_) s0)).out =
      [.addClause 0 (Demo.cl [1]), .addClause 1 (Demo.cl [-1]),
       .deleteRatClause 0 false (Demo.cl [1]) (Demo.lit 1), .atClause 2 false [] [0, 1]] := by
  refine ⟨_, Demo.final_ok (by decide +kernel), by decide +kernel, by decide +kernel⟩

/-- **C20**: new ids are strictly increasing along an accepted history. -/
theorem C20.ids_increasing (env : Env) (hp : env.hasProc = true) (ops : List Op) (s : St)
    (h : execs env ops {} = .ok () s) : (s.out.filterMap newId).Pairwise (· < ·) := by
  obtain ⟨d, hd⟩ := C21.replay env hp ops s h
  exact (run_ids hd).1

/-- **C20** for `check_proof`. -/
theorem C20.check_proof_ids_increasing (env : Env) (hp : env.hasProc = true) (fill : Nat → Nat)
    (ops : List Op) (bs : Bytes) (s0 s : St) (h0 : execs env ops {} = .ok () s0) (hend : s0.ended = false)
    (h : checkProof env fill bs s0 = .ok () s) : (s.out.filterMap newId).Pairwise (· < ·) := by
  obtain ⟨sts, rest, s1, h1, h2, h3, h4⟩ := checkProof_ok hend h
  have hex : execs env (ops ++ (sts ++ [ProofStep.end_]).map Op.step) {} = .ok () s1 :=
    execs_append.2 ⟨s0, h0, h3⟩
  obtain ⟨d, hd, hl⟩ := rep_execs (A := []) (strict := False) hp Core.init (by simp [SSorted]) (by decide)
    (fun h => h.elim) (Rep.init False) hex
  have hids := run_ids hd
  have h4 : (match s1.unitConflict with
    | some (a, b) => emit env (.atClause s1.nextId false [] [a, b])
    | none => pure ()) s1 = .ok () s := h4
  cases hc : s1.unitConflict with
  | none =>
    rw [hc] at h4
    have h4 : (EStateM.Result.ok () s1 : EStateM.Result Err St Unit) = .ok () s := h4
    simp only [EStateM.Result.ok.injEq, true_and] at h4
    subst h4
    exact hids.1
  | some x =>
    obtain ⟨a, b⟩ := x
    rw [hc] at h4
    simp only at h4
    have hw : wp (emit env (.atClause s1.nextId false [] [a, b]))
        (fun _ s' => s'.out = s1.out ++ [.atClause s1.nextId false [] [a, b]]) (fun _ _ => True) s1 :=
      wp_emit (fun _ => rfl) (fun _ _ _ => trivial)
    have hout := wp_ok hw h4
    rw [hout, List.filterMap_append, List.pairwise_append]
    refine ⟨hids.1, by simp [newId], ?_⟩
    intro i hi j hj
    simp only [newId, List.filterMap_cons, List.filterMap_nil, List.mem_singleton] at hj
    subst hj
    have := (hids.2.1 i hi).2
    rw [hl.next] at this
    exact this

/-- **C20**: two clauses held at the same time, long or unit, never share an id. -/
theorem C20.ids_distinct (env : Env) (hp : env.hasProc = true) (ops : List Op) (s : St)
    (h : execs env ops {} = .ok () s) (i : Nat) (c d : List Lit) (hc : HasId s i c) (hd : HasId s i d) : c = d := by
  obtain ⟨db, -, hl⟩ := rep_execs (A := []) (strict := False) hp Core.init (by simp [SSorted]) (by decide)
    (fun h => h.elim) (Rep.init False) h
  have h1 := hl.fwd i c hc
  have h2 := hl.fwd i d hd
  rw [h1] at h2
  exact Option.some.inj h2

example : ((Demo.final (execs Demo.env Demo.refutation {})).out.filterMap newId) = [0, 1, 2, 3, 4, 5] ∧
    accepted (execs Demo.env Demo.refutation {}) = true := by decide +kernel

/-- Calling `check_proof` again after it succeeded reports the same id again: the id of the final empty
clause is not reserved. (The statement about one proof is `C20.check_proof_ids_increasing`.) -/
theorem C20.second_check_proof_reuses_id : ∃ s0 s1 s2,
    execs Demo.env [.add (Demo.cl [1]), .add (Demo.cl [-1])] {} = .ok () s0 ∧
    checkProof Demo.env (fun _ => 3) (Fmt.writeStep .end_) s0 = .ok () s1 ∧
    checkProof Demo.env (fun _ => 3) [] s1 = .ok () s2 ∧
    s2.out.filterMap newId = [0, 1, 2, 2] := by
  refine ⟨_, _, _, Demo.final_ok (by decide +kernel), Demo.final_ok (by decide +kernel),
    Demo.final_ok (by decide +kernel), by decide +kernel⟩

end Varisat
