import Verif.Proof.CheckerOut
/-!
# C12–C17: the proof checker

Histories are lists of calls (`Op`: `add_clause` of the API, or one proof step); `execs env ops {}`
runs a fresh checker through all of them. `env` stands for arbitrary proof processors, transcript
processors and hash map iteration orders.
-/
namespace Varisat
open Checker

/-! ## Concrete runs used as examples -/

namespace Demo
/-- No processors; hash map visited in order. -/
def env : Env where
  hasProc := true
  proc _ := true
  hasTranscript := true
  transcript _ := true
  iter := id
  iter_perm _ := List.Perm.refl _

/-- Dimacs literal. -/
def lit (i : Int) : Lit := Lit.mk' (i.natAbs - 1) (decide (0 < i))
def cl (is : List Int) : List Lit := is.map lit
/-- The default hash of a clause. -/
def hash (is : List Int) : Nat := hashOf ({} : St).hashBits ({} : St).names (copyCanonical (cl is)).1

/-- Did the run succeed? -/
def accepted (r : EStateM.Result Err St Unit) : Bool := match r with
  | .ok _ _ => true
  | .error _ _ => false
/-- The state at the end. -/
def final (r : EStateM.Result Err St Unit) : St := match r with
  | .ok _ s => s
  | .error _ s => s
theorem final_ok {r : EStateM.Result Err St Unit} (h : accepted r = true) : r = .ok () (final r) := by
  cases r <;> simp_all [accepted, final]

/-- All four clauses over two variables. -/
def square : List Op := [.add (cl [1, 2]), .add (cl [1, -2]), .add (cl [-1, 2]), .add (cl [-2, -1])]
/-- A refutation of `square`: unit 1, then the empty clause. -/
def refutation : List Op := square ++
  [.step (.atClause false (cl [1]) [hash [1, 2], hash [1, -2]]),
   .step (.deleteClause (cl [2, 1]) .simplified),
   .step (.atClause true (cl []) [hash [-1, 2], hash [-1, -2]])]
/-- A satisfiable formula, an assumption, its failure, a model. -/
def incremental : List Op := [.add (cl [1, 2]), .add (cl [1, -2, 3]), .add (cl [-3]),
  .step (.assumptions (cl [-1, 4])),
  .step (.failedAssumptions (cl [-1]) [hash [1, 2], hash [1, -2, 3]]),
  .step (.assumptions (cl [4])),
  .step (.atClause false (cl [1, -2]) [hash [1, -2, 3]]),
  .step (.deleteClause (cl [1, -2, 3]) .simplified)]
end Demo
open Demo

/-! ## C13 -/

/-- **C13**: if the checker has accepted a history and has noticed or reported the empty clause (internal
flag, step passed to proof processors, or transcript), the clauses added are unsatisfiable. -/
theorem C13.refutation_sound (env : Env) (ops : List Op) (s : St) (h : execs env ops {} = .ok () s)
    (hu : s.unsat = true ∨ (∃ id red ps, CheckedStep.atClause id red [] ps ∈ s.out) ∨
      TranscriptStep.unsat ∈ s.tout) : Unsat (added ops) := by
  have hr := ran_execs (Ran.init (env := env)) h
  rw [List.nil_append] at hr
  have hat : (∃ id red ps, CheckedStep.atClause id red [] ps ∈ s.out) → Unsat (added ops) := by
    rintro ⟨id, red, ps, hm⟩
    have := hr.out _ hm
    exact fun a ha => clauseSat_nil (this a ha)
  rcases hu with hu | hu | hu
  · exact hr.core.unsat hu
  · exact hat hu
  · exact hat (tinv_execs (s := {}) (by intro h; simp at h) h hu)

example : accepted (execs Demo.env refutation {}) = true ∧
    (final (execs Demo.env refutation {})).unsat = true ∧
    TranscriptStep.unsat ∈ (final (execs Demo.env refutation {})).tout := by decide +kernel

/-- **C13** for `Checker::check_proof`: formula clauses and other calls first, then a proof file. If the
call succeeds the file decodes to steps up to an `End` step, and if the empty clause was noticed or
reported, then the clauses of the formula together with those added in the proof are unsatisfiable. -/
theorem C13.check_proof_sound (env : Env) (fill : Nat → Nat) (ops : List Op) (bs : Bytes) (s0 s : St)
    (h0 : execs env ops {} = .ok () s0) (hend : s0.ended = false)
    (h : checkProof env fill bs s0 = .ok () s) :
    ∃ sts rest, readSteps fill (sts.length + 1) bs = .ok (sts ++ [.end_], rest) ∧
      ((s.unsat = true ∨ (∃ id red ps, CheckedStep.atClause id red [] ps ∈ s.out) ∨
        TranscriptStep.unsat ∈ s.tout) →
        Unsat (added ops ++ sts.flatMap fun st => Op.added (.step st))) := by
  obtain ⟨sts, rest, s1, h1, h2, h3, h4⟩ := checkProof_ok hend h
  have hex : execs env (ops ++ (sts ++ [ProofStep.end_]).map Op.step) {} = .ok () s1 :=
    execs_append.2 ⟨s0, h0, h3⟩
  have hadd : added (ops ++ (sts ++ [ProofStep.end_]).map Op.step) =
      added ops ++ sts.flatMap fun st => Op.added (.step st) := by
    simp [added, Op.added, List.flatMap_append, List.flatMap_map]
  refine ⟨sts, rest, h1, fun hu => ?_⟩
  rw [← hadd]
  have hcore := ran_execs (Ran.init (env := env)) hex
  have ht1 : TInv s1 := tinv_execs (s := {}) (by intro h; simp at h) hex
  by_cases hs1 : s1.unsat = true
  · exact hcore.core.unsat hs1
  · have hnc : s1.unitConflict = none := by
      have := hcore.core.conf
      cases hc : s1.unitConflict with
      | none => rfl
      | some x => rw [hc] at this; exact absurd (this rfl) hs1
    have h4 : s = s1 := by
      have h4 : (match s1.unitConflict with
        | some (a, b) => emit env (.atClause s1.nextId false [] [a, b])
        | none => pure ()) s1 = .ok () s := h4
      rw [hnc] at h4
      have h4 : (EStateM.Result.ok () s1 : EStateM.Result Err St Unit) = .ok () s := h4
      simp only [EStateM.Result.ok.injEq, true_and] at h4
      exact h4.symm
    rw [h4] at hu
    exact C13.refutation_sound env _ s1 hex hu

/-- The example refutation as a proof file, read with an 8-byte buffer. -/
example : accepted (execs Demo.env square {}) = true ∧ (final (execs Demo.env square {})).ended = false ∧
    accepted (checkProof Demo.env (fun _ => 8) (([.atClause false (cl [1]) [hash [1, 2], hash [1, -2]],
      .atClause true (cl []) [hash [-1, 2], hash [-1, -2]], .end_] : List ProofStep).flatMap Fmt.writeStep)
      (final (execs Demo.env square {}))) = true := by decide +kernel

/-- What `check_proof` (and the command line's `s VERIFIED`) does not say: it succeeds for a proof that
consists of `End` only, whatever the formula. Success alone is not a refutation. -/
theorem C13.success_is_not_refutation : ∃ ops s, execs Demo.env ops {} = .ok () s ∧ s.ended = false ∧
    accepted (checkProof Demo.env (fun _ => 8) (Fmt.writeStep .end_) s) = true ∧ ¬ Unsat (added ops) := by
  refine ⟨[.add (cl [1, 2])], _, final_ok (by decide +kernel), by decide +kernel, by decide +kernel, ?_⟩
  intro h
  refine h (fun _ => true) ?_
  intro c hc
  simp only [added, Op.added, List.flatMap_cons, List.flatMap_nil, List.append_nil, List.mem_singleton] at hc
  subst hc
  exact ⟨lit 1, by decide, by decide⟩

/-! ## C12 -/

/-- **C12**: let the bytes decode to steps ending with the first `End`. Cut anywhere before the last byte of
`End`, `check_proof` does not succeed, from any state of the checker that has not seen `End` yet. -/
theorem C12.truncated_never_accepted (env : Env) (fill : Nat → Nat) (s s' : St) (hs : s.ended = false)
    (bs rest p q : Bytes) (sts : List ProofStep) (hn : ProofStep.end_ ∉ sts)
    (hdec : readSteps fill (sts.length + 1) bs = .ok (sts ++ [.end_], rest)) (hpq : bs = p ++ q)
    (hcut : rest.length < q.length) : checkProof env fill p s ≠ .ok () s' := by
  intro h
  obtain ⟨sts', rest', s1, h1, h2, -, -⟩ := checkProof_ok hs h
  have h3 := readSteps_mono fill _ _ _ _ h1 q
  rw [← hpq] at h3
  obtain ⟨-, h4⟩ := readSteps_end_unique fill sts sts' bs rest _ hn h2 hdec h3
  rw [h4, List.length_append] at hcut
  omega

/-- In particular a proof written by the solver and cut at any byte is not accepted. -/
theorem C12.truncated_written_proof (env : Env) (fill : Nat → Nat) (s s' : St) (hs : s.ended = false)
    (sts : List ProofStep) (hfit : ∀ st ∈ sts, StepFits st) (hn : ProofStep.end_ ∉ sts) (k : Nat)
    (hk : k < ((sts ++ [ProofStep.end_]).flatMap Fmt.writeStep).length) :
    checkProof env fill (((sts ++ [ProofStep.end_]).flatMap Fmt.writeStep).take k) s ≠ .ok () s' := by
  have hdec := C11.sequence_roundtrip fill (sts ++ [.end_]) (by
    intro st hst
    rcases List.mem_append.1 hst with h | h
    · exact hfit st h
    · simp only [List.mem_singleton] at h; subst h; trivial) []
  rw [List.append_nil, List.length_append] at hdec
  refine C12.truncated_never_accepted env fill s s' hs _ [] _ _ sts hn hdec (List.take_append_drop k _).symm ?_
  simp only [List.length_drop, List.length_nil]
  omega

example : ∀ st ∈ [ProofStep.atClause false (cl [1]) [hash [1, 2], hash [1, -2]], .model (cl [1])],
    StepFits st := by
  intro st hst
  simp only [List.mem_cons, List.not_mem_nil, or_false] at hst
  rcases hst with rfl | rfl <;> simp only [StepFits] <;> decide +kernel

/-! ## C14 -/

/-- **C14**: an accepted asymmetric-tautology step adds a consequence of the clauses added before. -/
theorem C14.at_clause_implied (env : Env) (ops : List Op) (s s' : St) (h : execs env ops {} = .ok () s)
    (red : Bool) (c : List Lit) (hashes : List Nat)
    (ha : Op.exec env (.step (.atClause red c hashes)) s = .ok () s') : Entails (added ops) c := by
  have hr := (ran_execs (Ran.init (env := env)) h).core
  rw [List.nil_append] at hr
  exact (Core.at (hr.same (quiet_step hr.pre).toSame) (op_ok hr.pre ha)).2

/-- **C14** for unit clause steps. -/
theorem C14.unit_clauses_implied (env : Env) (ops : List Op) (s s' : St) (h : execs env ops {} = .ok () s)
    (us : List (Lit × Nat)) (ha : Op.exec env (.step (.unitClauses us)) s = .ok () s') :
    ∀ u ∈ us, Entails (added ops) [u.1] := by
  have hr := (ran_execs (Ran.init (env := env)) h).core
  rw [List.nil_append] at hr
  intro u hu
  exact (Core.units (hr.same (quiet_step hr.pre).toSame) (op_ok hr.pre ha)).2 u.1
    (List.mem_map.2 ⟨u, hu, rfl⟩)

/-- **C14**, as seen by proof processors: every derived clause they are given follows from the clauses
added in the history. -/
theorem C14.reported_clauses_implied (env : Env) (ops : List Op) (s : St) (h : execs env ops {} = .ok () s)
    (id : Nat) (red : Bool) (c : List Lit) (ps : List Nat) (hm : CheckedStep.atClause id red c ps ∈ s.out) :
    Entails (added ops) c := by
  have hr := (ran_execs (Ran.init (env := env)) h).out
  rw [List.nil_append] at hr
  exact hr _ hm

example : accepted (execs Demo.env (square ++ [.step (.atClause false (cl [1]) [hash [1, 2], hash [1, -2]]),
    .step (.unitClauses [(lit 2, hash [-1, 2])])]) {}) = true := by decide +kernel
/-- A step that is not accepted. -/
example : accepted (execs Demo.env (square ++ [.step (.atClause false (cl [3]) [hash [1, 2], hash [1, -2]])]) {})
    = false := by decide +kernel

/-! ## C15 -/

/-- **C15**: accepted failed assumptions are current assumptions and contradict the clauses added so far. -/
theorem C15.failed_assumptions_sound (env : Env) (ops : List Op) (s s' : St) (h : execs env ops {} = .ok () s)
    (core : List Lit) (hashes : List Nat)
    (ha : Op.exec env (.step (.failedAssumptions core hashes)) s = .ok () s') :
    (∀ l ∈ core, l ∈ assumedBy [] ops) ∧ UnsatUnder (added ops) core := by
  have hr := (ran_execs (Ran.init (env := env)) h).core
  rw [List.nil_append] at hr
  have hasm := asm_execs (A := []) Core.init (by decide) h
  have he : FailedEff env core _ s' := op_ok hr.pre ha
  constructor
  · intro l hl
    have hsub := he.sub
    simp only [hasm] at hsub
    have := ((isSubsetLoop_spec (canonical_ssorted _) (canonical_ssorted _)).1 hsub).1 l (mem_canonical.2 hl)
    exact mem_canonical.1 this
  · intro a hF hall
    refine Core.failed (hr.same (quiet_step hr.pre).toSame) he a hF ?_
    intro l hl
    exact hall l (mem_canonical.1 hl)

example : accepted (execs Demo.env incremental {}) = true ∧ assumedBy [] incremental = cl [4] := by decide +kernel
example : accepted (execs Demo.env (incremental ++
    [.step (.failedAssumptions (cl [-1]) [hash [1, 2], hash [1, -2, 3]])]) {}) = false := by decide +kernel

/-! ## C16 -/

/-- The assignment satisfies what the checker holds: not marked unsatisfiable, all irredundant clauses of
the database, all unit clauses. -/
def HeldSat (a : Asg) (s : St) : Prop :=
  s.unsat = false ∧
  (∀ b ∈ s.clauses, ∀ c ∈ b.2, 0 < c.irred → clauseSat a (c.lits.slice s.buffer)) ∧
  (∀ v u, s.units v = some u → (Lit.mk' v u.value).holds a)

theorem heldSat_iff {a : Asg} {s : St} : HeldSat a s ↔ s.unsat = false ∧ DbSat a s := by
  unfold HeldSat
  constructor
  · rintro ⟨h1, h2, h3⟩
    refine ⟨h1, ⟨?_, h3⟩⟩
    intro e he hpos
    obtain ⟨c, hc, rfl⟩ := List.mem_map.1 he
    obtain ⟨b, hb, hcb⟩ := mem_flat.1 hc
    exact h2 b hb c hcb hpos
  · rintro ⟨h1, h2⟩
    refine ⟨h1, ?_, h2.unit⟩
    intro b hb c hc hpos
    exact h2.long (entryOf s.buffer c) (List.mem_map.2 ⟨c, mem_flat.2 ⟨b, hb, hc⟩, rfl⟩) hpos

/-- **C16**: without variable deletions, the irredundant clauses and unit clauses held after an accepted
history have the same models as all clauses added. -/
theorem C16.nothing_lost (env : Env) (ops : List Op) (s : St) (h : execs env ops {} = .ok () s)
    (hn : NoDeleteVar ops) (a : Asg) : HeldSat a s ↔ cnfSat a (added ops) := by
  obtain ⟨hc, hf⟩ := full_execs Core.init Full.init hn h
  rw [List.nil_append] at hc hf
  rw [heldSat_iff]
  constructor
  · rintro ⟨h1, h2⟩; exact hf.complete h1 a h2
  · intro ha
    refine ⟨?_, ⟨fun e he _ => hc.sound e he a ha, fun v u hu => ?_⟩⟩
    · cases hu : s.unsat with
      | false => rfl
      | true => exact absurd ha (hc.unsat hu a)
    · have := hc.usound v u hu a ha
      rwa [clauseSat_singleton] at this

/-- **C16**: every clause held, redundant ones included, follows from what was added (variable deletions
allowed). -/
theorem C16.held_implied (env : Env) (ops : List Op) (s : St) (h : execs env ops {} = .ok () s) :
    (∀ b ∈ s.clauses, ∀ c ∈ b.2, Entails (added ops) (c.lits.slice s.buffer)) ∧
    (∀ v u, s.units v = some u → Entails (added ops) [Lit.mk' v u.value]) := by
  have hr := (ran_execs (Ran.init (env := env)) h).core
  rw [List.nil_append] at hr
  refine ⟨?_, hr.usound⟩
  intro b hb c hc
  exact hr.sound (entryOf s.buffer c) (List.mem_map.2 ⟨c, mem_flat.2 ⟨b, hb, hc⟩, rfl⟩)

/-- A history with accepted deletions and no variable deletion. -/
example : accepted (execs Demo.env incremental {}) = true ∧ NoDeleteVar incremental := by
  refine ⟨by decide +kernel, ?_⟩
  intro v hv
  simp [incremental] at hv

/-- With `DeleteVar` the statement is false of the code: the unit clause is dropped. -/
theorem C16.delete_var_loses_unit : ∃ ops s, execs Demo.env ops {} = .ok () s ∧
    ∃ a, HeldSat a s ∧ ¬ cnfSat a (added ops) := by
  refine ⟨[.add (cl [1]), .step (.deleteVar 0)], _, final_ok (by decide +kernel), fun _ => false, ?_, ?_⟩
  · refine ⟨by decide +kernel, ?_, ?_⟩
    · intro b hb
      have : (final (execs Demo.env [.add (cl [1]), .step (.deleteVar 0)] {})).clauses = [] := by decide +kernel
      rw [this] at hb
      simp at hb
    intro v u hu
    exfalso
    have : (final (execs Demo.env [.add (cl [1]), .step (.deleteVar 0)] {})).units = upd (upd (fun _ => none) 0
        (some ⟨.global 0, true⟩)) 0 none := rfl
    rw [this] at hu
    unfold upd at hu
    split at hu <;> simp_all
  · intro h
    obtain ⟨l, hl, hh⟩ := h (cl [1]) (by decide)
    have : l = lit 1 := by simpa [cl] using hl
    subst this
    exact absurd hh (by decide)

/-! ## C17 -/

/-- **C17**: if the checker accepts a model step while the formula is not known to be unsatisfiable and no
variable was deleted, then every assignment that makes the model's literals and the checker's unit clauses
true satisfies every clause added and every current assumption; and there is such an assignment. -/
theorem C17.model_sound_partial (env : Env) (ops : List Op) (s s' : St) (h : execs env ops {} = .ok () s)
    (hn : NoDeleteVar ops) (hu : s.unsat = false) (m : List Lit)
    (ha : Op.exec env (.step (.model m)) s = .ok () s') :
    (∀ a, allHold a m → (∀ v u, s.units v = some u → (Lit.mk' v u.value).holds a) →
      cnfSat a (added ops) ∧ allHold a (assumedBy [] ops)) ∧
    ∃ a, allHold a m ∧ (∀ v u, s.units v = some u → (Lit.mk' v u.value).holds a) ∧
      cnfSat a (added ops) ∧ allHold a (assumedBy [] ops) := by
  obtain ⟨hc, hf⟩ := full_execs Core.init Full.init hn h
  rw [List.nil_append] at hc hf
  have hasm := asm_execs (A := []) Core.init (by decide) h
  have hm : ModelOk m s := by
    have : _ ∧ ModelOk m _ := op_ok hc.pre ha
    obtain ⟨-, h1, h2, h3, h4⟩ := this
    exact ⟨h1, h2, h3, h4⟩
  have key : ∀ a, allHold a m → (∀ v u, s.units v = some u → (Lit.mk' v u.value).holds a) →
      cnfSat a (added ops) ∧ allHold a (assumedBy [] ops) := by
    intro a h1 h2
    refine ⟨hf.complete hu a ⟨fun e he _ => ?_, h2⟩, ?_⟩
    · obtain ⟨l, hl, hlm⟩ := hm.clauses e he
      exact ⟨l, hl, h1 l hlm⟩
    · intro l hl
      exact h1 l (hm.assumed l (by rw [hasm]; exact mem_canonical.2 hl))
  refine ⟨key, ?_⟩
  -- literals of the model are true; other variables as in the unit clauses
  let a : Asg := fun v => if Lit.mk' v true ∈ m then true else if Lit.mk' v false ∈ m then false else
    match s.units v with
    | some u => u.value
    | none => true
  have hlit : ∀ l : Lit, l = Lit.mk' l.var (!l.isNeg) := fun l => (Lit.mk'_var_neg l).symm
  have hneg : ∀ v b, (Lit.mk' v b).neg = Lit.mk' v (!b) := by
    intro v b
    apply Lit.ext_var_neg
    · rw [Lit.var_neg, Lit.var_mk', Lit.var_mk']
    · rw [Lit.isNeg_neg, Lit.isNeg_mk', Lit.isNeg_mk']
  have h1 : allHold a m := by
    intro l hl
    show a l.var = !l.isNeg
    have hl' : Lit.mk' l.var (!l.isNeg) ∈ m := by rw [← hlit]; exact hl
    cases hs : l.isNeg with
    | false =>
      rw [hs] at hl'
      simp only [Bool.not_false] at hl'
      simp [a, hl']
    | true =>
      rw [hs] at hl'
      simp only [Bool.not_true] at hl'
      have : Lit.mk' l.var true ∉ m := by
        have := hm.cons _ hl'
        rw [hneg] at this; exact this
      simp [a, hl', this]
  have h2 : ∀ v u, s.units v = some u → (Lit.mk' v u.value).holds a := by
    intro v u hvu
    show a (Lit.mk' v u.value).var = !(Lit.mk' v u.value).isNeg
    rw [Lit.var_mk', Lit.isNeg_mk', Bool.not_not]
    by_cases ht : Lit.mk' v true ∈ m
    · have := hm.units _ ht u (by rw [Lit.var_mk']; exact hvu)
      rw [this, Lit.isNeg_mk']
      simp [a, ht]
    · by_cases hfl : Lit.mk' v false ∈ m
      · have := hm.units _ hfl u (by rw [Lit.var_mk']; exact hvu)
        rw [this, Lit.isNeg_mk']
        simp [a, ht, hfl]
      · simp [a, ht, hfl, hvu]
  exact ⟨a, h1, h2, key a h1 h2⟩

/-- **C17**, without reference to the checker's state: a model step that assigns every variable of the formula
is a model, whatever the variables not assigned. -/
theorem C17.total_model_sound_partial (env : Env) (ops : List Op) (s s' : St) (h : execs env ops {} = .ok () s)
    (hn : NoDeleteVar ops) (hu : s.unsat = false) (m : List Lit)
    (ha : Op.exec env (.step (.model m)) s = .ok () s')
    (htot : ∀ c ∈ added ops, ∀ l ∈ c, ∃ k ∈ m, k.var = l.var) (a : Asg) (hm : allHold a m) :
    cnfSat a (added ops) ∧ allHold a (assumedBy [] ops) := by
  obtain ⟨-, b, hb, -, h1, h2⟩ := C17.model_sound_partial env ops s s' h hn hu m ha
  have hagree : ∀ k ∈ m, a k.var = b k.var := fun k hk => (hm k hk).trans (hb k hk).symm
  constructor
  · intro c hc
    obtain ⟨l, hl, hh⟩ := h1 c hc
    obtain ⟨k, hk, hkl⟩ := htot c hc l hl
    refine ⟨l, hl, ?_⟩
    show a l.var = _
    rw [← hkl, hagree k hk, hkl]; exact hh
  · have hasm := asm_execs (A := []) Core.init (by decide) h
    have hc := (full_execs Core.init Full.init hn h).1
    have hmo : _ ∧ ModelOk m _ := op_ok hc.pre ha
    intro l hl
    exact hm l (hmo.2.assumed l (by simp only; rw [hasm]; exact mem_canonical.2 hl))

example : accepted (execs Demo.env (incremental ++ [.step (.model (cl [1, 4, -2]))]) {}) = true ∧
    (final (execs Demo.env incremental {})).unsat = false := by decide +kernel

/-- Why the hypothesis `unsat = false`: the code accepts a model of a contradictory formula. -/
theorem C17.model_of_unsat_accepted : ∃ ops m, accepted (execs Demo.env (ops ++ [.step (.model m)]) {}) = true ∧
    NoDeleteVar ops ∧ Unsat (added ops) := by
  refine ⟨[.add (cl [1]), .add (cl [-1])], cl [1], by decide +kernel, by intro v hv; simp at hv, ?_⟩
  exact C13.refutation_sound Demo.env _ _ (final_ok (by decide +kernel)) (Or.inl (by decide +kernel))

/-- Why `NoDeleteVar`: the code accepts a model that falsifies an added clause whose variable was deleted. -/
theorem C17.model_after_delete_var : ∃ ops m s, execs Demo.env ops {} = .ok () s ∧ s.unsat = false ∧
    accepted (Op.exec Demo.env (.step (.model m)) s) = true ∧
    ∀ a, allHold a m → ¬ cnfSat a (added ops) := by
  refine ⟨[.add (cl [1]), .step (.deleteVar 0)], cl [-1], _, final_ok (by decide +kernel), by decide +kernel,
    by decide +kernel, ?_⟩
  intro a ha h
  obtain ⟨l, hl, hh⟩ := h (cl [1]) (by decide)
  have : l = lit 1 := by simpa [cl] using hl
  subst this
  have h1 := ha (lit (-1)) (by decide)
  have : lit (-1) = (lit 1).neg := by decide
  rw [this, Lit.holds_neg] at h1
  exact h1 hh

end Varisat
