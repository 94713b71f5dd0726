import Verif.Proof.CheckerFrame
import Verif.Proof.CheckerComplete
/-! With a transcript in place, every proof of the empty clause and every model the checker accepts is in the transcript. -/
namespace Varisat.Checker.Told

/-- What the processors were told is in the transcript. -/
def Told (s : St) : Prop :=
  (∀ id red ps, CheckedStep.atClause id red [] ps ∈ s.out → TranscriptStep.unsat ∈ s.tout) ∧
  ((∃ a, CheckedStep.model a ∈ s.out) ↔ ∃ m, TranscriptStep.model m ∈ s.tout)

/-- The processors accept everything and there is a transcript. -/
def Talks (env : Env) : Prop := Accepting env ∧ env.hasTranscript = true

def Fr (s s' : St) : Prop := Told s → Told s'

theorem Fr.refl (s : St) : Fr s s := id
theorem Fr.trans {s t u : St} (h : Fr s t) (h' : Fr t u) : Fr s u := fun x => h' (h x)
theorem Fr.of {s s' : St} (h : s'.out = s.out) (h' : s'.tout = s.tout) : Fr s s' := by
  unfold Fr Told; rw [h, h']; exact id

/-- `m` preserves the frame, whether it succeeds or fails. -/
def Pres {α : Type} (m : CM α) : Prop := ∀ s, match m s with
  | .ok _ s' => Fr s s'
  | .error _ s' => Fr s s'

theorem Pres.pure {α : Type} (a : α) : Pres (pure a : CM α) := fun s => Fr.refl s
theorem Pres.fail {α : Type} (w : Why) : Pres (fail w : CM α) := fun s => Fr.refl s
theorem Pres.panic {α : Type} : Pres (panic : CM α) := fun s => Fr.refl s
theorem Pres.get : Pres getSt := fun s => Fr.refl s

theorem Pres.bind {α β : Type} {m : CM α} {f : α → CM β} (h : Pres m) (hf : ∀ a, Pres (f a)) :
    Pres (m >>= f) := by
  intro s
  have h1 := h s
  show match EStateM.bind m f s with | .ok _ s' => Fr s s' | .error _ s' => Fr s s'
  unfold EStateM.bind
  cases hm : m s with
  | ok a s1 =>
    rw [hm] at h1
    have h2 := hf a s1
    simp only at h1 ⊢
    cases hfa : f a s1 <;> rw [hfa] at h2 <;> exact h1.trans h2
  | error e s1 => rw [hm] at h1; exact h1

theorem Pres.modify {f : St → St} (h : ∀ s, Fr s (f s)) : Pres (modifySt f) := fun s => h s

theorem transcript_model {s : St} {st : CheckedStep} {m : List Lit} (h : transcriptStep s st = some (some (.model m))) : ∃ a, st = .model a := by
  cases st with
  | userVar v u =>
    cases u with
    | none => simp [transcriptStep] at h
    | some u =>
      simp only [transcriptStep] at h
      split at h <;> split at h <;> simp at h
  | atClause id red c ps =>
    simp only [transcriptStep] at h
    split at h <;> simp at h
  | model a => exact ⟨a, rfl⟩
  | _ => simp [transcriptStep] at h

theorem pres_emit {env : Env} (ht : Talks env) (st : CheckedStep) : Pres (emit env st) := by
  intro s
  obtain ⟨⟨hp, htr⟩, hh⟩ := ht
  unfold emit
  simp only
  have hneg : ∀ o, ¬ (env.hasProc && !env.proc o) = true := by
    intro o h
    simp only [Bool.and_eq_true, Bool.not_eq_true'] at h
    rw [hp h.1] at h
    exact absurd h.2 (by simp)
  rw [if_neg (hneg _), if_pos hh]
  have more : ∀ (t : List TranscriptStep), (∀ i r ps, st = .atClause i r [] ps → .unsat ∈ t) →
      ((∃ a, st = .model a) ↔ ∃ m, .model m ∈ t) → Fr s { s with out := s.out ++ [st], tout := s.tout ++ t } := by
    intro t h1 h2 h
    refine ⟨fun i r ps hm => ?_, ⟨fun ⟨a, hm⟩ => ?_, fun ⟨m, hm⟩ => ?_⟩⟩
    · rcases List.mem_append.1 hm with hm | hm
      · exact List.mem_append_left _ (h.1 i r ps hm)
      · exact List.mem_append_right _ (h1 i r ps (List.mem_singleton.1 hm).symm)
    · rcases List.mem_append.1 hm with hm | hm
      · obtain ⟨m, k⟩ := h.2.1 ⟨a, hm⟩
        exact ⟨m, List.mem_append_left _ k⟩
      · obtain ⟨m, k⟩ := h2.1 ⟨a, (List.mem_singleton.1 hm).symm⟩
        exact ⟨m, List.mem_append_right _ k⟩
    · rcases List.mem_append.1 hm with hm | hm
      · obtain ⟨m, k⟩ := h.2.2 ⟨m, hm⟩
        exact ⟨m, List.mem_append_left _ k⟩
      · obtain ⟨a, k⟩ := h2.2 ⟨m, hm⟩
        exact ⟨a, List.mem_append_right _ (by rw [k]; simp)⟩
  have none' : (∀ i r ps, st ≠ .atClause i r [] ps) → (∀ a, st ≠ .model a) → Fr s { s with out := s.out ++ [st] } := by
    intro h1 h2
    have := more [] (fun i r ps h => absurd h (h1 i r ps)) ⟨fun ⟨a, h⟩ => absurd h (h2 a), fun ⟨_, h⟩ => by cases h⟩
    rwa [List.append_nil] at this
  generalize hts : transcriptStep { s with out := s.out ++ [st] } st = ts
  match ts with
  | none =>
    refine none' ?_ ?_
    · rintro i r ps rfl; cases hts
    · rintro a rfl; cases hts
  | some none =>
    refine none' ?_ ?_
    · rintro i r ps rfl; cases hts
    · rintro a rfl; cases hts
  | some (some t) =>
    simp only
    have k := more [t] (by rintro i r ps rfl; cases hts; simp) (by
      constructor
      · rintro ⟨a, rfl⟩; cases hts; exact ⟨_, List.mem_singleton_self _⟩
      · rintro ⟨m, hm⟩
        rw [List.mem_singleton] at hm
        subst hm
        exact transcript_model hts)
    rw [if_pos (htr hh _)]
    exact k

theorem Pres.ite {α : Type} {p : Prop} [Decidable p] {m n : CM α} (h1 : Pres m) (h2 : Pres n) :
    Pres (if p then m else n) := by split <;> assumption

macro "told_tac" : tactic => `(tactic| repeat' first
  | exact Pres.pure _ | exact Pres.fail _ | exact Pres.panic | exact Pres.get | exact pres_emit (by assumption) _
  | (refine Pres.modify fun s => ?_; exact Fr.of rfl rfl)
  | assumption
  | (refine Pres.bind ?_ fun _ => ?_)
  | split)

theorem fr_ensureVar (v : Nat) (s : St) : Fr s (ensureVar v s) := by
  obtain ⟨n, h⟩ := ensureVar_eq v s; rw [h]; exact Fr.of rfl rfl
theorem fr_ensureVars (ls : List Lit) (s : St) : Fr s (ensureVars ls s) := by
  obtain ⟨n, h⟩ := ensureVars_eq ls s; rw [h]; exact Fr.of rfl rfl
theorem fr_rehash (env : Env) (s : St) : Fr s (rehash env s) := Fr.of rfl rfl
theorem fr_collectGarbage (env : Env) (s : St) : Fr s (collectGarbage env s) := by
  unfold collectGarbage; split
  · exact Fr.refl s
  · exact Fr.of rfl rfl

theorem pres_ensureVar (v : Nat) : Pres (modifySt (ensureVar v)) := Pres.modify (fr_ensureVar v)
theorem pres_ensureVars (ls : List Lit) : Pres (modifySt (ensureVars ls)) := Pres.modify (fr_ensureVars ls)

theorem pres_sampling (v : Nat) : Pres (ensureSamplingVar v) := by
  unfold ensureSamplingVar
  have := pres_ensureVar v
  told_tac

theorem pres_samplings : ∀ ls, Pres (ensureSamplingVars ls)
  | [] => Pres.pure _
  | l :: ls => by
    unfold ensureSamplingVars
    exact Pres.bind (pres_sampling _) fun _ => pres_samplings ls

theorem pres_addUser {env : Env} (ht : Talks env) (g u : Nat) : Pres (addUserMapping env g u) := by
  unfold addUserMapping
  have := pres_ensureVar g
  told_tac

theorem pres_removeUser {env : Env} (ht : Talks env) (g : Nat) : Pres (removeUserMapping env g) := by
  unfold removeUserMapping
  have := pres_ensureVar g
  told_tac

theorem pres_storeUnit (l : Lit) : Pres (storeUnitClause l) := by
  unfold storeUnitClause
  told_tac

theorem pres_storeLong (ls : List Lit) (r : Bool) : Pres (storeLong ls r) := by
  intro s
  unfold storeLong
  simp only
  generalize bumpCandidate _ _ _ _ = x
  match x with
  | some (cs, id, res) => exact Fr.of rfl rfl
  | none => exact Fr.of rfl rfl

theorem pres_store (ls : List Lit) (r : Bool) : Pres (storeClause ls r) := by
  unfold storeClause
  have h1 := pres_ensureVars ls
  have h2 := fun l => pres_storeUnit l
  have h3 := fun ls => pres_storeLong ls r
  refine Pres.bind h1 fun _ => ?_
  split
  · told_tac
  · exact h2 _
  · exact h3 _

theorem pres_addClause {env : Env} (ht : Talks env) (c : List Lit) : Pres (addClause env c) := by
  unfold addClause
  have h1 := fun ls => pres_samplings ls
  have h2 := fun ls => pres_store ls false
  refine Pres.bind Pres.get fun s => ?_
  split
  · exact Pres.pure _
  · generalize copyCanonical c = cc
    obtain ⟨tmp, taut⟩ := cc
    simp only
    split
    · told_tac
    · refine Pres.bind (h1 _) fun _ => Pres.bind (h2 _) fun r => ?_
      obtain ⟨id, a⟩ := r
      cases a <;> told_tac

theorem pres_delete (env : Env) (ls : List Lit) (r : Bool) : Pres (deleteClause env ls r) := by
  intro s
  unfold deleteClause
  by_cases hl : ls.length < 2
  · simp only [hl, if_true]; exact Fr.refl s
  · simp only [hl, if_false]
    generalize dropCandidate _ _ _ _ = x
    obtain ⟨cs, f⟩ := x
    simp only
    generalize (if cs.isEmpty = true then _ else _) = m
    match f with
    | some (some (id, .removed, g)) =>
      refine Fr.trans ?_ (fr_collectGarbage env _); exact Fr.of rfl rfl
    | some (some (id, .newlyRedundant, g)) =>
      refine Fr.trans ?_ (fr_collectGarbage env _); exact Fr.of rfl rfl
    | some (some (id, .unchanged, g)) =>
      refine Fr.trans ?_ (fr_collectGarbage env _); exact Fr.of rfl rfl
    | some none => exact Fr.of rfl rfl
    | none => exact Fr.of rfl rfl

theorem pres_check (env : Env) (ls : List Lit) (hs : List Nat) : Pres (checkClauseWithHashes env ls hs) := by
  unfold checkClauseWithHashes
  refine Pres.bind (Pres.modify fun s => ?_) fun _ => ?_
  · split
    · exact fr_rehash env s
    · exact Fr.refl s
  · refine Pres.bind (Pres.modify fun s => Fr.of rfl rfl) fun _ => ?_
    refine Pres.bind Pres.get fun s => ?_
    split
    · exact Pres.panic
    · refine Pres.bind (pres_ensureVars _) fun _ => ?_
      refine Pres.bind Pres.get fun s => ?_
      split
      · told_tac
      · told_tac
      · simp only
        generalize propHashes _ _ _ _ = x
        obtain ⟨r, e⟩ := x
        cases e <;> told_tac

theorem pres_deleteVar {env : Env} (ht : Talks env) (v : Nat) : Pres (checkDeleteVar env v) := by
  unfold checkDeleteVar
  have := pres_ensureVar v
  told_tac

theorem pres_sampling_mode {env : Env} (ht : Talks env) (v : Nat) (b : Bool) : Pres (checkChangeSamplingMode env v b) := by
  unfold checkChangeSamplingMode
  have := pres_ensureVar v
  refine Pres.bind this fun _ => Pres.bind Pres.get fun s => ?_
  simp only
  generalize (if b = true then SamplingMode.sample else SamplingMode.witness) = m
  told_tac

theorem pres_at {env : Env} (ht : Talks env) (r : Bool) (c : List Lit) (hs : List Nat) : Pres (checkAtClause env r c hs) := by
  unfold checkAtClause
  generalize copyCanonical c = cc
  obtain ⟨tmp, taut⟩ := cc
  simp only
  split
  · exact Pres.fail _
  · refine Pres.bind (pres_check _ _ _) fun _ => Pres.bind (pres_store _ _) fun x => ?_
    obtain ⟨id, a⟩ := x
    cases a <;> told_tac

theorem pres_justify (tmp : List Lit) (p : DeleteProof) : Pres (justifyDelete tmp p) := by
  unfold justifyDelete
  told_tac

theorem pres_deleteClause {env : Env} (ht : Talks env) (c : List Lit) (p : DeleteProof) : Pres (checkDeleteClause env c p) := by
  unfold checkDeleteClause
  generalize copyCanonical c = cc
  obtain ⟨tmp, taut⟩ := cc
  simp only
  split
  · exact Pres.fail _
  · refine Pres.bind (pres_justify _ _) fun x => Pres.bind (Pres.modify fun s => Fr.of rfl rfl)
      fun _ => Pres.bind (pres_delete _ _ _) fun y => ?_
    obtain ⟨id, d⟩ := y
    cases d <;> told_tac

theorem pres_units {env : Env} (ht : Talks env) : ∀ us, Pres (checkUnitClauses env us)
  | [] => Pres.pure _
  | (l, h) :: us => by
    unfold checkUnitClauses
    refine Pres.bind (pres_ensureVar _) fun _ => Pres.bind (pres_check _ _ _) fun _ =>
      Pres.bind (pres_storeUnit _) fun x => ?_
    obtain ⟨id, a⟩ := x
    have := pres_units ht us
    cases a <;> told_tac

theorem pres_modelLits : ∀ ls seen, Pres (modelLits ls seen)
  | [], _ => Pres.pure _
  | l :: ls, seen => by
    unfold modelLits
    have := pres_modelLits ls (l :: seen)
    told_tac

theorem pres_model {env : Env} (ht : Talks env) (a : List Lit) : Pres (checkModel env a) := by
  unfold checkModel
  have := pres_modelLits a []
  told_tac

theorem pres_failed {env : Env} (ht : Talks env) (c : List Lit) (hs : List Nat) : Pres (checkFailedAssumptions env c hs) := by
  unfold checkFailedAssumptions
  generalize copyCanonical c = cc
  obtain ⟨tmp, taut⟩ := cc
  have := pres_check env (tmp.map Lit.neg) hs
  told_tac

theorem pres_step {env : Env} (ht : Talks env) (st : ProofStep) :
    Pres (checkStep env st) := by
  unfold checkStep
  split
  · exact Pres.modify fun s => Fr.of rfl rfl
  · exact pres_addUser ht _ _
  · exact pres_removeUser ht _
  · exact pres_deleteVar ht _
  · exact pres_sampling_mode ht _ _
  · exact pres_addClause ht _
  · exact pres_at ht _ _ _
  · exact pres_deleteClause ht _ _
  · exact pres_units ht _
  · exact Pres.modify fun s => Fr.of rfl rfl
  · exact pres_model ht _
  · have := fun a => pres_samplings a
    refine Pres.bind (this _) fun _ => ?_
    told_tac
  · exact pres_failed ht _ _
  · exact Pres.modify fun s => Fr.of rfl rfl


theorem of {m : CM Unit} (hm : Pres m) {s s' : St} (h : m s = .ok () s') (k : Told s) : Told s' := by
  have := hm s
  rw [h] at this
  exact this k

theorem pres_exec {env : Env} (ht : Talks env) (op : Op) : Pres (op.exec env) := by
  cases op with
  | add c => exact pres_addClause ht c
  | step st =>
    refine Pres.bind (Pres.modify fun s => Fr.of rfl rfl) fun _ => pres_step ht st

theorem pres_execs {env : Env} (ht : Talks env) : ∀ ops, Pres (execs env ops)
  | [] => Pres.pure _
  | op :: ops => by
    unfold execs
    exact Pres.bind (pres_exec ht op) fun _ => pres_execs ht ops

theorem pres_conflicts {env : Env} (ht : Talks env) : Pres (processUnitConflicts env) := by
  unfold processUnitConflicts
  told_tac

/-- The outcome of a computation from `s`. -/
def Done (s : St) (r : EStateM.Result Err St Unit) : Prop := match r with
  | .ok _ s' => Fr s s'
  | .error _ s' => Fr s s'

theorem pres_loop {env : Env} (ht : Talks env) (fill : Nat → Nat) (bs : Bytes) : Pres (checkLoop env fill bs) := by
  induction hn : bs.length using Nat.strong_induction_on generalizing bs with
  | _ n ih =>
    intro s
    suffices h : ∀ r, checkLoop env fill bs s = r → Done s r by
      have k := h _ rfl
      cases hx : checkLoop env fill bs s <;> rw [hx] at k <;> exact k
    intro r h
    rw [checkLoop] at h
    by_cases he : s.ended = true
    · rw [if_pos he] at h; subst h; exact Fr.refl s
    · rw [if_neg he] at h
      simp only at h
      split at h
      · subst h; exact Fr.of rfl rfl
      · subst h; exact Fr.of rfl rfl
      · rename_i st rest hp
        have k := pres_step ht st { s with step := s.step + 1 }
        cases hc : checkStep env st { s with step := s.step + 1 } with
        | error e t => rw [hc] at k h; subst h; exact k
        | ok a t =>
          rw [hc] at k h
          have l := ih rest.length (by have := Fmt.parseStep_progress hp; omega) rest rfl t
          simp only at h
          rw [h] at l
          cases r <;> exact Fr.trans k l

theorem pres_proof {env : Env} (ht : Talks env) (fill : Nat → Nat) (bs : Bytes) : Pres (checkProof env fill bs) := by
  unfold checkProof
  exact Pres.bind (pres_loop ht fill bs) fun _ => pres_conflicts ht

theorem new : Told {} := ⟨(fun _ _ _ h => by cases h), by simp⟩

end Varisat.Checker.Told
