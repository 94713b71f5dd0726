import Verif.Proof.CheckerEff
import Verif.Model.CheckerApi
/-! Frame properties of the checker: what no step except `End` changes, and where transcript steps
come from. -/
namespace Varisat.Checker

/-- The empty clause is only reported in the transcript after it was passed to the processors. -/
def TInv (s : St) : Prop :=
  TranscriptStep.unsat ∈ s.tout → ∃ id red ps, CheckedStep.atClause id red [] ps ∈ s.out

/-- What all functions but `End` preserve. -/
structure Fr (s s' : St) : Prop where
  bits : s'.hashBits = s.hashBits
  ended : s'.ended = s.ended
  step : s'.step = s.step
  tinv : TInv s → TInv s'

theorem Fr.refl (s : St) : Fr s s := ⟨rfl, rfl, rfl, id⟩
theorem Fr.trans {s t u : St} (h : Fr s t) (h' : Fr t u) : Fr s u :=
  ⟨h'.bits.trans h.bits, h'.ended.trans h.ended, h'.step.trans h.step, fun x => h'.tinv (h.tinv x)⟩

/-- Changes of other fields. -/
theorem Fr.of {s s' : St} (h : s'.hashBits = s.hashBits ∧ s'.ended = s.ended ∧ s'.step = s.step ∧
    s'.out = s.out ∧ s'.tout = s.tout) :
    Fr s s' := ⟨h.1, h.2.1, h.2.2.1, by unfold TInv; rw [h.2.2.2.1, h.2.2.2.2]; exact id⟩

/-- `m` preserves the frame, whether it succeeds or fails. -/
def Pres {α : Type} (m : CM α) : Prop := ∀ s, match m s with
  | .ok _ s' => Fr s s'
  | .error _ s' => Fr s s'

theorem Pres.pure {α : Type} (a : α) : Pres (pure a : CM α) := fun s => Fr.refl s
theorem Pres.fail {α : Type} (w : Why) : Pres (fail w : CM α) := fun s => Fr.refl s
theorem Pres.panic {α : Type} : Pres (panic : CM α) := fun s => Fr.refl s
theorem Pres.get : Pres getSt := fun s => Fr.refl s

theorem Pres.bind {α β : Type} {m : CM α} {f : α → CM β} (h : Pres m) (hf : ∀ a, Pres (f a)) :
    Pres (m >>= f) := by
  intro s
  have h1 := h s
  show match EStateM.bind m f s with | .ok _ s' => Fr s s' | .error _ s' => Fr s s'
  unfold EStateM.bind
  cases hm : m s with
  | ok a s1 =>
    rw [hm] at h1
    have h2 := hf a s1
    simp only at h1 ⊢
    cases hfa : f a s1 <;> rw [hfa] at h2 <;> exact h1.trans h2
  | error e s1 => rw [hm] at h1; exact h1

theorem Pres.modify {f : St → St} (h : ∀ s, Fr s (f s)) : Pres (modifySt f) := fun s => h s

theorem transcript_unsat {s : St} {st : CheckedStep} (h : transcriptStep s st = some (some .unsat)) :
    ∃ id red ps, st = .atClause id red [] ps := by
  cases st with
  | userVar v u =>
    cases u with
    | none => simp [transcriptStep] at h
    | some u =>
      simp only [transcriptStep] at h
      split at h <;> split at h <;> simp at h
  | atClause id red c ps =>
    simp only [transcriptStep] at h
    split at h
    · rename_i hc
      rw [List.isEmpty_iff.1 hc]
      exact ⟨_, _, _, rfl⟩
    · simp at h
  | _ => simp [transcriptStep] at h

theorem pres_emit (env : Env) (st : CheckedStep) : Pres (emit env st) := by
  intro s
  unfold emit
  have hout : Fr s { s with out := s.out ++ [st] } := by
    refine ⟨rfl, rfl, rfl, fun h ht => ?_⟩
    obtain ⟨i, r, p, hm⟩ := h ht
    exact ⟨i, r, p, List.mem_append_left _ hm⟩
  generalize hs1 : ({ s with out := s.out ++ [st] } : St) = s1 at *
  have htr : ∀ t, transcriptStep s1 st = some (some t) → Fr s { s1 with tout := s1.tout ++ [t] } := by
    intro t ht
    refine ⟨hout.bits, hout.ended, hout.step, fun h hm => ?_⟩
    rcases List.mem_append.1 hm with hm | hm
    · exact hout.tinv h hm
    · simp only [List.mem_singleton] at hm
      rw [← hm] at ht
      obtain ⟨i, r, p, hst⟩ := transcript_unsat ht
      refine ⟨i, r, p, ?_⟩
      rw [← hs1, ← hst]; simp
  simp only
  by_cases h1 : (env.hasProc && !env.proc s1.out) = true
  · simp only [h1, if_true]; exact hout
  · simp only [h1, Bool.false_eq_true, if_false]
    by_cases h2 : env.hasTranscript = true
    · simp only [h2, if_true]
      generalize hts : transcriptStep s1 st = ts at *
      match ts with
      | none => exact hout
      | some none => exact hout
      | some (some t) =>
        simp only
        by_cases h3 : env.transcript (s1.tout ++ [t]) = true
        · simp only [h3, if_true]; exact htr t rfl
        · simp only [h3, Bool.false_eq_true, if_false]; exact htr t rfl
    · simp only [h2, Bool.false_eq_true, if_false]; exact hout

theorem Pres.ite {α : Type} {p : Prop} [Decidable p] {m n : CM α} (h1 : Pres m) (h2 : Pres n) :
    Pres (if p then m else n) := by split <;> assumption

macro "pres_tac" : tactic => `(tactic| repeat' first
  | exact Pres.pure _ | exact Pres.fail _ | exact Pres.panic | exact Pres.get | exact pres_emit _ _
  | (refine Pres.modify fun s => ?_; exact Fr.of ⟨rfl, rfl, rfl, rfl, rfl⟩)
  | assumption
  | (refine Pres.bind ?_ fun _ => ?_)
  | split)

theorem fr_ensureVar (v : Nat) (s : St) : Fr s (ensureVar v s) := by
  obtain ⟨n, h⟩ := ensureVar_eq v s; rw [h]; exact Fr.of ⟨rfl, rfl, rfl, rfl, rfl⟩
theorem fr_ensureVars (ls : List Lit) (s : St) : Fr s (ensureVars ls s) := by
  obtain ⟨n, h⟩ := ensureVars_eq ls s; rw [h]; exact Fr.of ⟨rfl, rfl, rfl, rfl, rfl⟩
theorem fr_rehash (env : Env) (s : St) : Fr s (rehash env s) := Fr.of ⟨rfl, rfl, rfl, rfl, rfl⟩
theorem fr_collectGarbage (env : Env) (s : St) : Fr s (collectGarbage env s) := by
  unfold collectGarbage; split
  · exact Fr.refl s
  · exact Fr.of ⟨rfl, rfl, rfl, rfl, rfl⟩

theorem pres_ensureVar (v : Nat) : Pres (modifySt (ensureVar v)) := Pres.modify (fr_ensureVar v)
theorem pres_ensureVars (ls : List Lit) : Pres (modifySt (ensureVars ls)) := Pres.modify (fr_ensureVars ls)

theorem pres_sampling (v : Nat) : Pres (ensureSamplingVar v) := by
  unfold ensureSamplingVar
  have := pres_ensureVar v
  pres_tac

theorem pres_samplings : ∀ ls, Pres (ensureSamplingVars ls)
  | [] => Pres.pure _
  | l :: ls => by
    unfold ensureSamplingVars
    exact Pres.bind (pres_sampling _) fun _ => pres_samplings ls

theorem pres_addUser (env : Env) (g u : Nat) : Pres (addUserMapping env g u) := by
  unfold addUserMapping
  have := pres_ensureVar g
  pres_tac

theorem pres_removeUser (env : Env) (g : Nat) : Pres (removeUserMapping env g) := by
  unfold removeUserMapping
  have := pres_ensureVar g
  pres_tac

theorem pres_storeUnit (l : Lit) : Pres (storeUnitClause l) := by
  unfold storeUnitClause
  pres_tac

theorem pres_storeLong (ls : List Lit) (r : Bool) : Pres (storeLong ls r) := by
  intro s
  unfold storeLong
  simp only
  generalize bumpCandidate _ _ _ _ = x
  match x with
  | some (cs, id, res) => exact Fr.of ⟨rfl, rfl, rfl, rfl, rfl⟩
  | none => exact Fr.of ⟨rfl, rfl, rfl, rfl, rfl⟩

theorem pres_store (ls : List Lit) (r : Bool) : Pres (storeClause ls r) := by
  unfold storeClause
  have h1 := pres_ensureVars ls
  have h2 := fun l => pres_storeUnit l
  have h3 := fun ls => pres_storeLong ls r
  refine Pres.bind h1 fun _ => ?_
  split
  · pres_tac
  · exact h2 _
  · exact h3 _

theorem pres_addClause (env : Env) (c : List Lit) : Pres (addClause env c) := by
  unfold addClause
  have h1 := fun ls => pres_samplings ls
  have h2 := fun ls => pres_store ls false
  refine Pres.bind Pres.get fun s => ?_
  split
  · exact Pres.pure _
  · generalize copyCanonical c = cc
    obtain ⟨tmp, taut⟩ := cc
    simp only
    split
    · pres_tac
    · refine Pres.bind (h1 _) fun _ => Pres.bind (h2 _) fun r => ?_
      obtain ⟨id, a⟩ := r
      cases a <;> pres_tac

theorem pres_delete (env : Env) (ls : List Lit) (r : Bool) : Pres (deleteClause env ls r) := by
  intro s
  unfold deleteClause
  by_cases hl : ls.length < 2
  · simp only [hl, if_true]; exact Fr.refl s
  · simp only [hl, if_false]
    generalize dropCandidate _ _ _ _ = x
    obtain ⟨cs, f⟩ := x
    simp only
    generalize (if cs.isEmpty = true then _ else _) = m
    match f with
    | some (some (id, .removed, g)) =>
      refine Fr.trans ?_ (fr_collectGarbage env _); exact Fr.of ⟨rfl, rfl, rfl, rfl, rfl⟩
    | some (some (id, .newlyRedundant, g)) =>
      refine Fr.trans ?_ (fr_collectGarbage env _); exact Fr.of ⟨rfl, rfl, rfl, rfl, rfl⟩
    | some (some (id, .unchanged, g)) =>
      refine Fr.trans ?_ (fr_collectGarbage env _); exact Fr.of ⟨rfl, rfl, rfl, rfl, rfl⟩
    | some none => exact Fr.of ⟨rfl, rfl, rfl, rfl, rfl⟩
    | none => exact Fr.of ⟨rfl, rfl, rfl, rfl, rfl⟩

theorem pres_check (env : Env) (ls : List Lit) (hs : List Nat) : Pres (checkClauseWithHashes env ls hs) := by
  unfold checkClauseWithHashes
  refine Pres.bind (Pres.modify fun s => ?_) fun _ => ?_
  · split
    · exact fr_rehash env s
    · exact Fr.refl s
  · refine Pres.bind (Pres.modify fun s => Fr.of ⟨rfl, rfl, rfl, rfl, rfl⟩) fun _ => ?_
    refine Pres.bind Pres.get fun s => ?_
    split
    · exact Pres.panic
    · refine Pres.bind (pres_ensureVars _) fun _ => ?_
      refine Pres.bind Pres.get fun s => ?_
      split
      · pres_tac
      · pres_tac
      · simp only
        generalize propHashes _ _ _ _ = x
        obtain ⟨r, e⟩ := x
        cases e <;> pres_tac

theorem pres_deleteVar (env : Env) (v : Nat) : Pres (checkDeleteVar env v) := by
  unfold checkDeleteVar
  have := pres_ensureVar v
  pres_tac

theorem pres_sampling_mode (env : Env) (v : Nat) (b : Bool) : Pres (checkChangeSamplingMode env v b) := by
  unfold checkChangeSamplingMode
  have := pres_ensureVar v
  refine Pres.bind this fun _ => Pres.bind Pres.get fun s => ?_
  simp only
  generalize (if b = true then SamplingMode.sample else SamplingMode.witness) = m
  pres_tac

theorem pres_at (env : Env) (r : Bool) (c : List Lit) (hs : List Nat) : Pres (checkAtClause env r c hs) := by
  unfold checkAtClause
  generalize copyCanonical c = cc
  obtain ⟨tmp, taut⟩ := cc
  simp only
  split
  · exact Pres.fail _
  · refine Pres.bind (pres_check _ _ _) fun _ => Pres.bind (pres_store _ _) fun x => ?_
    obtain ⟨id, a⟩ := x
    cases a <;> pres_tac

theorem pres_justify (tmp : List Lit) (p : DeleteProof) : Pres (justifyDelete tmp p) := by
  unfold justifyDelete
  pres_tac

theorem pres_deleteClause (env : Env) (c : List Lit) (p : DeleteProof) : Pres (checkDeleteClause env c p) := by
  unfold checkDeleteClause
  generalize copyCanonical c = cc
  obtain ⟨tmp, taut⟩ := cc
  simp only
  split
  · exact Pres.fail _
  · refine Pres.bind (pres_justify _ _) fun x => Pres.bind (Pres.modify fun s => Fr.of ⟨rfl, rfl, rfl, rfl, rfl⟩)
      fun _ => Pres.bind (pres_delete _ _ _) fun y => ?_
    obtain ⟨id, d⟩ := y
    cases d <;> pres_tac

theorem pres_units (env : Env) : ∀ us, Pres (checkUnitClauses env us)
  | [] => Pres.pure _
  | (l, h) :: us => by
    unfold checkUnitClauses
    refine Pres.bind (pres_ensureVar _) fun _ => Pres.bind (pres_check _ _ _) fun _ =>
      Pres.bind (pres_storeUnit _) fun x => ?_
    obtain ⟨id, a⟩ := x
    have := pres_units env us
    cases a <;> pres_tac

theorem pres_modelLits : ∀ ls seen, Pres (modelLits ls seen)
  | [], _ => Pres.pure _
  | l :: ls, seen => by
    unfold modelLits
    have := pres_modelLits ls (l :: seen)
    pres_tac

theorem pres_model (env : Env) (a : List Lit) : Pres (checkModel env a) := by
  unfold checkModel
  have := pres_modelLits a []
  pres_tac

theorem pres_failed (env : Env) (c : List Lit) (hs : List Nat) : Pres (checkFailedAssumptions env c hs) := by
  unfold checkFailedAssumptions
  generalize copyCanonical c = cc
  obtain ⟨tmp, taut⟩ := cc
  have := pres_check env (tmp.map Lit.neg) hs
  pres_tac

theorem pres_step_bits (env : Env) (st : ProofStep) (h : st ≠ .end_) (hb : ∀ b, st ≠ .changeHashBits b) :
    Pres (checkStep env st) := by
  unfold checkStep
  split
  · exact Pres.modify fun s => Fr.of ⟨rfl, rfl, rfl, rfl, rfl⟩
  · exact pres_addUser _ _ _
  · exact pres_removeUser _ _
  · exact pres_deleteVar _ _
  · exact pres_sampling_mode _ _ _
  · exact pres_addClause _ _
  · exact pres_at _ _ _ _
  · exact pres_deleteClause _ _ _
  · exact pres_units _ _
  · exact absurd rfl (hb _)
  · exact pres_model _ _
  · have := fun a => pres_samplings a
    refine Pres.bind (this _) fun _ => ?_
    pres_tac
  · exact pres_failed _ _ _
  · exact absurd rfl h

/-- What all steps but `End` preserve. -/
structure FrW (s s' : St) : Prop where
  ended : s'.ended = s.ended
  step : s'.step = s.step
  tinv : TInv s → TInv s'

theorem pres_step (env : Env) (st : ProofStep) (h : st ≠ .end_) (s : St) :
    match checkStep env st s with
    | .ok _ s' => FrW s s'
    | .error _ s' => FrW s s' := by
  by_cases hb : ∀ b, st ≠ .changeHashBits b
  · have := pres_step_bits env st h hb s
    cases hc : checkStep env st s <;> rw [hc] at this <;> exact ⟨this.ended, this.step, this.tinv⟩
  · obtain ⟨b, rfl⟩ := Classical.not_forall_not.1 hb
    exact ⟨rfl, rfl, id⟩

/-- The number of hash bits after a step. -/
theorem bits_step (env : Env) (st : ProofStep) {s s' : St} (h : checkStep env st s = .ok () s') :
    s'.hashBits = match st with | .changeHashBits b => b | _ => s.hashBits := by
  by_cases hb : ∃ b, st = .changeHashBits b
  · obtain ⟨b, rfl⟩ := hb
    have h : (EStateM.Result.ok () (rehash env { s with hashBits := b }) : EStateM.Result Err St Unit) =
      .ok () s' := h
    simp only [EStateM.Result.ok.injEq, true_and] at h
    subst h; rfl
  · by_cases he : st = .end_
    · subst he
      have h : (EStateM.Result.ok () { s with ended := true } : EStateM.Result Err St Unit) = .ok () s' := h
      simp only [EStateM.Result.ok.injEq, true_and] at h
      subst h; rfl
    · have hb' : ∀ b, st ≠ .changeHashBits b := fun b h => hb ⟨b, h⟩
      have := pres_step_bits env st he hb' s
      rw [h] at this
      have := this.bits
      cases st <;> first | exact this | exact absurd rfl (hb' _)

end Varisat.Checker
