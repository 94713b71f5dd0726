import Verif.Model.Checker
import Verif.Proof.CheckerComplete
/-!
# Failing processors

A run of the checker with processors that may fail is the run with processors that accept everything, or it ends with
the error of a processor.
-/
namespace Varisat.Checker

/-- The same surroundings with processors that accept everything. -/
def Env.lenient (env : Env) : Env := { env with proc := fun _ => true, transcript := fun _ => true }

theorem Env.lenient_accepting (env : Env) : Accepting env.lenient := ⟨fun _ _ => rfl, fun _ _ => rfl⟩

/-- A processor returns an error for some steps. -/
def Env.Fails (env : Env) : Prop :=
  (env.hasProc = true ∧ ∃ o, env.proc o = false) ∨ (env.hasTranscript = true ∧ ∃ t, env.transcript t = false)

/-- Equal up to an error of a processor. -/
def Near (env : Env) {β : Type} (m m' : CM β) : Prop := ∀ s, m s = m' s ∨ (∃ s', m s = .error .processor s') ∧ env.Fails

variable {env : Env} {β γ : Type}

theorem Near.refl (m : CM β) : Near env m m := fun _ => .inl rfl

theorem Near.bind {m m' : CM β} {f f' : β → CM γ} (h : Near env m m') (hf : ∀ a, Near env (f a) (f' a)) : Near env (m >>= f) (m' >>= f') := by
  intro s
  have e1 : ∀ (m : CM β) (f : β → CM γ), (m >>= f) s = match m s with
      | .ok a s => f a s
      | .error e s => .error e s := fun m f => by
    show EStateM.bind m f s = _
    unfold EStateM.bind
    cases m s <;> rfl
  rw [e1, e1]
  rcases h s with h | ⟨⟨s', h⟩, k⟩
  · rw [h]
    cases m' s with
    | ok a t => exact hf a t
    | error x t => exact .inl rfl
  · rw [h]
    exact .inr ⟨⟨s', rfl⟩, k⟩

theorem emit_near (st : CheckedStep) : Near env (emit env st) (emit env.lenient st) := by
  intro s
  unfold emit
  simp only [Env.lenient, Bool.not_true, Bool.and_false, Bool.false_eq_true, if_false, if_true]
  split
  · rename_i h
    simp only [Bool.and_eq_true, Bool.not_eq_true'] at h
    exact .inr ⟨⟨_, rfl⟩, .inl ⟨h.1, _, h.2⟩⟩
  · split
    · rename_i ht
      split
      · exact .inl rfl
      · exact .inl rfl
      · split
        · exact .inl rfl
        · rename_i hf
          exact .inr ⟨⟨_, rfl⟩, .inr ⟨ht, _, by simpa using hf⟩⟩
    · exact .inl rfl

theorem modify_near (f f' : St → St) (h : f = f') : Near env (modifySt f) (modifySt f') := by subst h; exact .refl _

theorem addUserMapping_near (g u : Nat) : Near env (addUserMapping env g u) (addUserMapping env.lenient g u) := by
  unfold addUserMapping
  refine .bind (.refl _) fun _ => .bind (.refl _) fun s => ?_
  split
  · exact .refl _
  split
  · exact .refl _
  split
  · exact .refl _
  exact .bind (.refl _) fun _ => emit_near _

theorem removeUserMapping_near (g : Nat) : Near env (removeUserMapping env g) (removeUserMapping env.lenient g) := by
  unfold removeUserMapping
  refine .bind (.refl _) fun _ => .bind (.refl _) fun s => ?_
  split
  · exact .refl _
  exact .bind (emit_near _) fun _ => .refl _

theorem addClause_near (c : List Lit) : Near env (addClause env c) (addClause env.lenient c) := by
  unfold addClause
  refine .bind (.refl _) fun s => ?_
  split
  · exact .refl _
  split
  rename_i tmp taut _
  split
  · exact .bind (emit_near _) fun _ => .refl _
  refine .bind (.refl _) fun _ => .bind (.refl _) fun p => ?_
  split
  split
  · exact emit_near _
  · exact .bind (emit_near _) fun _ => .bind (.refl _) fun _ => .bind (emit_near _) fun _ => .refl _
  · exact .bind (.refl _) fun _ => .bind (emit_near _) fun _ => .refl _

theorem checkClause_lenient (lits : List Lit) (hashes : List Nat) :
    checkClauseWithHashes env.lenient lits hashes = checkClauseWithHashes env lits hashes := rfl

theorem checkDeleteVar_near (v : Nat) : Near env (checkDeleteVar env v) (checkDeleteVar env.lenient v) := by
  unfold checkDeleteVar
  refine .bind (.refl _) fun _ => .bind (.refl _) fun s => ?_
  split
  · exact .refl _
  split
  · exact .refl _
  split
  · exact .bind (emit_near _) fun _ => .refl _
  · exact .refl _
  · exact .refl _

theorem checkChangeSamplingMode_near (v : Nat) (b : Bool) : Near env (checkChangeSamplingMode env v b) (checkChangeSamplingMode env.lenient v b) := by
  unfold checkChangeSamplingMode
  refine .bind (.refl _) fun _ => .bind (.refl _) fun s => ?_
  simp only
  generalize (if b = true then SamplingMode.sample else .witness) = m
  split
  · refine .bind (.refl _) fun _ => ?_
    split
    · exact emit_near _
    · exact .refl _
  · exact .refl _

theorem checkAtClause_near (r : Bool) (c : List Lit) (hs : List Nat) : Near env (checkAtClause env r c hs) (checkAtClause env.lenient r c hs) := by
  unfold checkAtClause
  split
  split
  · exact .refl _
  refine .bind (.refl _) fun _ => .bind (.refl _) fun p => ?_
  split
  rename_i id added
  cases r
  · simp only [Bool.not_false, if_true]
    refine .bind (.refl _) fun _ => ?_
    cases added
    · exact .bind (.refl _) fun _ => emit_near _
    · exact .refl _
    · exact emit_near _
  · simp only [Bool.not_true, Bool.false_eq_true, if_false]
    cases added
    · exact .bind (.refl _) fun _ => emit_near _
    · exact .refl _
    · exact emit_near _

theorem checkDeleteClause_near (c : List Lit) (p : DeleteProof) : Near env (checkDeleteClause env c p) (checkDeleteClause env.lenient c p) := by
  unfold checkDeleteClause
  split
  split
  · exact .refl _
  simp only
  refine .bind (.refl _) fun sub => .bind (.refl _) fun _ => .bind (.refl _) fun q => ?_
  obtain ⟨id, d⟩ := q
  simp only
  by_cases hp : decide (p = .redundant) = true
  · rw [if_pos hp, if_pos hp]
    cases d <;> first | exact emit_near _ | exact .refl _
  · rw [if_neg hp, if_neg hp]
    cases d <;> cases sub <;> first | exact emit_near _ | exact .refl _

theorem checkUnitClauses_near : ∀ (us : List (Lit × Nat)), Near env (checkUnitClauses env us) (checkUnitClauses env.lenient us)
  | [] => .refl _
  | (l, h) :: us => by
    unfold checkUnitClauses
    refine .bind (.refl _) fun _ => .bind (.refl _) fun _ => .bind (.refl _) fun p => ?_
    split
    split
    · exact .bind (.refl _) fun _ => .bind (emit_near _) fun _ => checkUnitClauses_near us
    · first
        | exact checkUnitClauses_near us
        | exact .bind (.refl _) fun _ => checkUnitClauses_near us
    · first
        | exact checkUnitClauses_near us
        | exact .bind (.refl _) fun _ => checkUnitClauses_near us

theorem checkModel_near (m : List Lit) : Near env (checkModel env m) (checkModel env.lenient m) := by
  unfold checkModel
  refine .bind (.refl _) fun _ => .bind (.refl _) fun s => ?_
  split
  · exact .refl _
  split
  · exact .refl _
  exact emit_near _

theorem checkFailedAssumptions_near (c : List Lit) (hs : List Nat) :
    Near env (checkFailedAssumptions env c hs) (checkFailedAssumptions env.lenient c hs) := by
  unfold checkFailedAssumptions
  split
  refine .bind (.refl _) fun s => ?_
  split
  · exact .refl _
  split
  · exact .bind (.refl _) fun _ => .bind (.refl _) fun _ => emit_near _
  · exact .bind (.refl _) fun _ => .bind (.refl _) fun _ => emit_near _

theorem checkStep_near (st : ProofStep) : Near env (checkStep env st) (checkStep env.lenient st) := by
  cases st with
  | solverVarName => exact .refl _
  | userVarName g u =>
    cases u with
    | none => exact removeUserMapping_near g
    | some u => exact addUserMapping_near g u
  | deleteVar v => exact checkDeleteVar_near v
  | changeSamplingMode v b => exact checkChangeSamplingMode_near v b
  | addClause c => exact addClause_near c
  | atClause r c hs => exact checkAtClause_near r c hs
  | unitClauses us => exact checkUnitClauses_near us
  | deleteClause c p => exact checkDeleteClause_near c p
  | changeHashBits b => exact .refl _
  | model m => exact checkModel_near m
  | assumptions a => exact .bind (.refl _) fun _ => .bind (.refl _) fun _ => .bind (.refl _) fun _ => emit_near _
  | failedAssumptions c hs => exact checkFailedAssumptions_near c hs
  | end_ => exact .refl _

theorem selfCheckStep_near (st : ProofStep) : Near env (selfCheckStep env st) (selfCheckStep env.lenient st) :=
  .bind (.refl _) fun _ => checkStep_near st

theorem processUnitConflicts_near : Near env (processUnitConflicts env) (processUnitConflicts env.lenient) := by
  unfold processUnitConflicts
  refine .bind (.refl _) fun s => ?_
  split
  · exact emit_near _
  · exact .refl _

end Varisat.Checker
