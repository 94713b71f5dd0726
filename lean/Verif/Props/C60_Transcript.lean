import Verif.Proof.CheckerTruth
/-!
# C60: the transcript of a checked proof is right

For proofs in which no variable gets a name other than its own number and no variable is deleted. This holds for the
proofs of solvers that never reuse a hidden variable. `C60.two_names` and `C60.deleted` show that the transcript may be wrong
otherwise.
-/
namespace Varisat.Checker
open Spec.Transcript Naming Demo

/-- What the transcript `ts` of a run over the clauses `F` and the proof steps `sts` has to fulfil: every result is right
about the clauses and assumptions listed before it, except for models if the transcript also says that there are none; the
clauses listed are those added, in their order and up to the order of literals, and none is missing unless those listed are
contradictory; assumptions and results are those of the proof in their order. -/
def Faithful (F : List (List Lit)) (sts : List ProofStep) (ts : List TranscriptStep) : Prop :=
  (∀ pre t post, ts = pre ++ t :: post → Right pre t ∨ (SaysUnsat ts ∧ ∃ m, t = .model m)) ∧
  (∃ k, List.Forall₂ sameLits (clauses ts) (F.take k) ∧ (k = F.length ∨ Unsat (clauses ts))) ∧
  List.Forall₂ Repeats (proofQueries sts) (queries ts)

theorem forall2_canon (F : List (List Lit)) : List.Forall₂ sameLits (canon F) F := by
  induction F with
  | nil => exact .nil
  | cons c F ih => exact .cons (fun l => mem_canonical) ih

theorem Truth.faithful {F s sts} (h : Truth F s) (ht : Tells s.out s.tout) (hr : s.unsat = true → Refutes s.out)
    (hq : List.Forall₂ RepeatsO (proofQueries sts) (queriesO s.out)) : Faithful F sts s.tout := by
  refine ⟨fun pre t post e => ?_, ?_, ht.queries hq⟩
  · exact (ht.right h.truth pre t post e).imp_right fun ⟨k, m⟩ => ⟨ht.refuted (hr k), m⟩
  · rw [ht.same.1]
    obtain ⟨q, hq⟩ := h.pre
    refine ⟨(inputs s.out).length, ?_, ?_⟩
    · have : inputs s.out = canon (F.take (inputs s.out).length) := by
        unfold canon
        rw [List.map_take]
        show inputs s.out = List.take _ (canon F)
        rw [← hq]
        simp
      conv => arg 2; rw [this]
      exact forall2_canon _
    · cases hu : s.unsat with
      | true => exact .inr (h.unsat hu)
      | false => exact .inl (by rw [h.all hu]; simp [canon])

/-- **C60** for a proof file: if the checker accepts the file and the proof keeps the numbers of variables, the transcript
passed to the processors is faithful. -/
theorem C60.checked_partial {env : Env} (hh : env.hasTranscript = true) {fill : Nat → Nat} {ops : List Op} {bs : Bytes} {s0 s : St}
    (h0 : execs env ops {} = .ok () s0) (hend : s0.ended = false) (h : checkProof env fill bs s0 = .ok () s) :
    ∃ sts rest, readSteps fill (sts.length + 1) bs = .ok (sts ++ [.end_], rest) ∧
      ((∀ g u, Op.step (.userVarName g (some u)) ∈ ops ++ sts.map .step → u = g) → NoDeleteVar (ops ++ sts.map .step) →
        Faithful (added ops ++ sts.flatMap fun st => Op.added (.step st)) (steps ops ++ sts) s.tout) := by
  obtain ⟨sts, rest, s1, h1, h2, h3, h4⟩ := checkProof_ok hend h
  refine ⟨sts, rest, h1, fun hn hd => ?_⟩
  have hex : execs env (ops ++ (sts ++ [ProofStep.end_]).map Op.step) {} = .ok () s1 := execs_append.2 ⟨s0, h0, h3⟩
  have hadd : added (ops ++ (sts ++ [ProofStep.end_]).map Op.step) = added ops ++ sts.flatMap fun st => Op.added (.step st) := by
    simp [added, Op.added, List.flatMap_append, List.flatMap_map]
  have hd' : NoDeleteVar (ops ++ (sts ++ [ProofStep.end_]).map Op.step) := by
    intro v hv
    refine hd v ?_
    simpa using hv
  have hn' : OwnNames (ops ++ (sts ++ [ProofStep.end_]).map Op.step) := by
    intro g u hv
    refine hn g u ?_
    simpa using hv
  have ht := truth_execs hex hd'
  rw [hadd] at ht
  have hr := ran_execs (Ran.init (env := env)) hex
  rw [List.nil_append, hadd] at hr
  have hw := witnessed_execs (Ran.init (env := env)) hex Witnessed.init
  obtain ⟨k1, k2, k3⟩ := ht.conflicts hr.core hw h4
  have hi := Naming.of (pres_execs hh _ hn') hex ⟨(by intro v u k; cases k), .nil⟩
  have hi := Naming.of (pres_conflicts hh) h4 hi
  refine k1.faithful hi.2 k2 ?_
  rw [k3]
  have := queries_execs hex
  have e : proofQueries (steps (ops ++ (sts ++ [ProofStep.end_]).map Op.step)) = proofQueries (steps ops ++ sts) := by
    have e1 : steps (ops ++ (sts ++ [ProofStep.end_]).map Op.step) = steps ops ++ (sts ++ [.end_]) := by
      unfold steps
      rw [List.filterMap_append, List.filterMap_map]
      congr 1
      exact List.filterMap_some
    rw [e1]
    unfold proofQueries
    rw [List.filter_append, List.filter_append, List.filter_append]
    simp
  rwa [e] at this

/-- **C60** for the checker of a solver (`enable_self_checking`): as long as nothing is rejected and the clauses are not
known to be contradictory, the transcript so far is faithful. -/
theorem C60.history_partial {env : Env} (hh : env.hasTranscript = true) {ops : List Op} {s : St} (h : execs env ops {} = .ok () s)
    (hn : ∀ g u, Op.step (.userVarName g (some u)) ∈ ops → u = g) (hd : NoDeleteVar ops) (hu : s.unsat = false) :
    Faithful (added ops) (steps ops) s.tout :=
  (truth_execs h hd).faithful (Naming.of (pres_execs hh _ hn) h ⟨(by intro v u k; cases k), .nil⟩).2
    (fun k => by rw [hu] at k; cases k) (queries_execs h)

/-- Test: a history with hidden and renamed-to-themselves variables, a failed assumption and two models. -/
def C60.sample : List Op := incremental ++ [.step (.userVarName 0 (some 0)), .step (.userVarName 3 (some 3)),
  .step (.model (cl [1, -2, 4])), .step (.userVarName 0 none), .step (.assumptions (cl [4, 4])), .step (.model (cl [4, 1]))]

example : let s := final (execs Demo.env C60.sample {})
    accepted (execs Demo.env C60.sample {}) = true ∧ s.unsat = false ∧
    s.tout = [.addClause (cl [1, 2]), .addClause (cl [1, -2, 3]), .addClause (cl [-3]), .assume (cl [-1, 4]), .failedAssumptions (cl [-1]),
      .assume (cl [4]), .model (cl [1, -2, 4]), .hideVar 0, .assume (cl [4]), .model (cl [4])] := by decide +kernel

example : (∀ g u, Op.step (.userVarName g (some u)) ∈ C60.sample → u = g) ∧ NoDeleteVar C60.sample := by
  refine ⟨fun g u h => ?_, fun v h => ?_⟩
  · simp [C60.sample, incremental] at h
    omega
  · simp [C60.sample, incremental] at h

/-- Test: a file with a refutation by contradicting units. -/
example : let s0 := final (execs Demo.env [.add (cl [1]), .add (cl [2, -1])] {})
    let r := checkProof Demo.env (fun _ => 8) (([.addClause (cl [-1]), .addClause (cl [3]), .end_] : List ProofStep).flatMap Fmt.writeStep) s0
    s0.ended = false ∧ accepted r = true ∧ (final r).tout = [.addClause (cl [1]), .addClause (cl [-1, 2]), .addClause (cl [-1]), .unsat] := by
  decide +kernel

theorem neg_one {a : Asg} (h : (lit (-1)).holds a) : a 0 = false := by
  have h : a (lit (-1)).var = !(lit (-1)).isNeg := h
  rwa [show (lit (-1)).var = 0 by decide, show (lit (-1)).isNeg = true by decide] at h

/-- The code accepts proofs that give one name to two variables, and the transcript is then wrong: it lists the clauses
`1` and `-1` and a model. A variable without a name is reported by its own number, and the check for colliding names does
not count these (`processing.rs:120-137`, `variables.rs:100-108`). -/
theorem C60.two_names : ∃ ops s, execs Demo.env ops {} = .ok () s ∧ NoDeleteVar ops ∧ s.unsat = false ∧
    ∃ m, s.tout = [.addClause (cl [1]), .addClause (cl [-1]), .model m] ∧ ¬ Right [.addClause (cl [1]), .addClause (cl [-1])] (.model m) := by
  refine ⟨[.add (cl [1]), .step (.userVarName 1 (some 0)), .add (cl [-2]), .step (.model (cl [1, -2]))], _,
    final_ok (by decide +kernel), by intro v h; simp at h, by decide +kernel, cl [1, -1], by decide +kernel, ?_⟩
  rintro ⟨a, h, -⟩
  have h1 : a 0 = true := h (lit 1) (by decide)
  have h2 := neg_one (h (lit (-1)) (by decide))
  rw [h1] at h2
  cases h2

/-- The code accepts models that contradict a clause on a deleted variable. -/
theorem C60.deleted : ∃ ops s, execs Demo.env ops {} = .ok () s ∧ (∀ g u, Op.step (.userVarName g (some u)) ∉ ops) ∧ s.unsat = false ∧
    s.tout = [.addClause (cl [1]), .model (cl [-1])] ∧ ¬ Right [.addClause (cl [1])] (.model (cl [-1])) := by
  refine ⟨[.add (cl [1]), .step (.deleteVar 0), .step (.model (cl [-1]))], _,
    final_ok (by decide +kernel), by simp, by decide +kernel, by decide +kernel, ?_⟩
  rintro ⟨a, h, k, -⟩
  have h1 := neg_one (h (lit (-1)) (by decide))
  obtain ⟨l, hl, hh⟩ := k (cl [1]) (by decide)
  have : l = lit 1 := by simpa [cl] using hl
  subst this
  have h2 : a 0 = true := hh
  rw [h1] at h2
  cases h2

end Varisat.Checker
