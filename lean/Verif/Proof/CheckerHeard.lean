import Verif.Proof.CheckerFrame
import Verif.Proof.LenientOut
/-! A processor has accepted what it was told, as long as no error was returned. -/
namespace Varisat.Checker.Heard

variable {env : Env}

/-- The processor did not return an error for the steps it was told. -/
def Heard (env : Env) (s : St) : Prop := env.hasProc = true → s.out = [] ∨ env.proc s.out = true

def Fr (env : Env) (s s' : St) : Prop := Heard env s → Heard env s'

theorem Fr.refl (s : St) : Fr env s s := id
theorem Fr.trans {s t u : St} (h : Fr env s t) (h' : Fr env t u) : Fr env s u := fun x => h' (h x)
theorem Fr.of {s s' : St} (h : s'.out = s.out) : Fr env s s' := by
  unfold Fr Heard; rw [h]; exact id

/-- `m` preserves this if it succeeds. -/
def Pres (env : Env) {α : Type} (m : CM α) : Prop := ∀ s, match m s with
  | .ok _ s' => Fr env s s'
  | .error _ _ => True

theorem Pres.pure {α : Type} (a : α) : Pres env (pure a : CM α) := fun s => Fr.refl s
theorem Pres.fail {α : Type} (w : Why) : Pres env (fail w : CM α) := fun _ => trivial
theorem Pres.panic {α : Type} : Pres env (panic : CM α) := fun _ => trivial
theorem Pres.get : Pres env getSt := fun s => Fr.refl s

theorem Pres.bind {α β : Type} {m : CM α} {f : α → CM β} (h : Pres env m) (hf : ∀ a, Pres env (f a)) :
    Pres env (m >>= f) := by
  intro s
  have h1 := h s
  show match EStateM.bind m f s with | .ok _ s' => Fr env s s' | .error _ _ => True
  unfold EStateM.bind
  cases hm : m s with
  | ok a s1 =>
    rw [hm] at h1
    have h2 := hf a s1
    simp only at h1 ⊢
    cases hfa : f a s1 with
    | ok b s2 => rw [hfa] at h2; exact h1.trans h2
    | error e s2 => trivial
  | error e s1 => trivial

theorem Pres.modify {f : St → St} (h : ∀ s, Fr env s (f s)) : Pres env (modifySt f) := fun s => h s

theorem pres_emit (st : CheckedStep) : Pres env (emit env st) := by
  intro s
  unfold emit
  simp only
  by_cases h : (env.hasProc && !env.proc (s.out ++ [st])) = true
  · rw [if_pos h]; trivial
  rw [if_neg h]
  have key : ∀ t, t.out = s.out ++ [st] → Fr env s t := by
    intro t ht _ hp
    rw [ht]
    simp only [hp, Bool.true_and, Bool.not_eq_true', Bool.not_eq_false] at h
    exact .inr h
  by_cases hh : env.hasTranscript = true
  · rw [if_pos hh]
    rcases transcriptStep { s with out := s.out ++ [st] } st with _ | _ | t
    · trivial
    · exact key _ rfl
    · simp only
      by_cases ht : env.transcript (s.tout ++ [t]) = true
      · rw [if_pos ht]; exact key _ rfl
      · rw [if_neg ht]; trivial
  · rw [if_neg hh]; exact key _ rfl

theorem Pres.ite {α : Type} {p : Prop} [Decidable p] {m n : CM α} (h1 : Pres env m) (h2 : Pres env n) :
    Pres env (if p then m else n) := by split <;> assumption

macro "heard_tac" : tactic => `(tactic| repeat' first
  | exact Pres.pure _ | exact Pres.fail _ | exact Pres.panic | exact Pres.get | exact pres_emit _
  | (refine Pres.modify fun s => ?_; exact Fr.of rfl)
  | assumption
  | (refine Pres.bind ?_ fun _ => ?_)
  | split)

theorem fr_ensureVar (v : Nat) (s : St) : Fr env s (ensureVar v s) := by
  obtain ⟨n, h⟩ := ensureVar_eq v s; rw [h]; exact Fr.of rfl
theorem fr_ensureVars (ls : List Lit) (s : St) : Fr env s (ensureVars ls s) := by
  obtain ⟨n, h⟩ := ensureVars_eq ls s; rw [h]; exact Fr.of rfl
theorem fr_rehash (s : St) : Fr env s (rehash env s) := Fr.of rfl
theorem fr_collectGarbage (s : St) : Fr env s (collectGarbage env s) := by
  unfold collectGarbage; split
  · exact Fr.refl s
  · exact Fr.of rfl

theorem pres_ensureVar (v : Nat) : Pres env (modifySt (ensureVar v)) := Pres.modify (fr_ensureVar v)
theorem pres_ensureVars (ls : List Lit) : Pres env (modifySt (ensureVars ls)) := Pres.modify (fr_ensureVars ls)

theorem pres_sampling (v : Nat) : Pres env (ensureSamplingVar v) := by
  unfold ensureSamplingVar
  have := pres_ensureVar (env := env) v
  heard_tac

theorem pres_samplings : ∀ ls, Pres env (ensureSamplingVars ls)
  | [] => Pres.pure _
  | l :: ls => by
    unfold ensureSamplingVars
    exact Pres.bind (pres_sampling _) fun _ => pres_samplings ls

theorem pres_addUser (g u : Nat) : Pres env (addUserMapping env g u) := by
  unfold addUserMapping
  have := pres_ensureVar (env := env) g
  heard_tac

theorem pres_removeUser (g : Nat) : Pres env (removeUserMapping env g) := by
  unfold removeUserMapping
  have := pres_ensureVar (env := env) g
  heard_tac

theorem pres_storeUnit (l : Lit) : Pres env (storeUnitClause l) := by
  unfold storeUnitClause
  heard_tac

theorem pres_storeLong (ls : List Lit) (r : Bool) : Pres env (storeLong ls r) := by
  intro s
  unfold storeLong
  simp only
  generalize bumpCandidate _ _ _ _ = x
  match x with
  | some (cs, id, res) => exact Fr.of rfl
  | none => exact Fr.of rfl

theorem pres_store (ls : List Lit) (r : Bool) : Pres env (storeClause ls r) := by
  unfold storeClause
  have h1 := pres_ensureVars (env := env) ls
  have h2 := fun l => pres_storeUnit (env := env) l
  have h3 := fun ls => pres_storeLong (env := env) ls r
  refine Pres.bind h1 fun _ => ?_
  split
  · heard_tac
  · exact h2 _
  · exact h3 _

theorem pres_addClause (c : List Lit) : Pres env (addClause env c) := by
  unfold addClause
  have h1 := fun ls => pres_samplings (env := env) ls
  have h2 := fun ls => pres_store (env := env) ls false
  refine Pres.bind Pres.get fun s => ?_
  split
  · exact Pres.pure _
  · generalize copyCanonical c = cc
    obtain ⟨tmp, taut⟩ := cc
    simp only
    split
    · heard_tac
    · refine Pres.bind (h1 _) fun _ => Pres.bind (h2 _) fun r => ?_
      obtain ⟨id, a⟩ := r
      cases a <;> heard_tac

theorem pres_delete (ls : List Lit) (r : Bool) : Pres env (deleteClause env ls r) := by
  intro s
  unfold deleteClause
  by_cases hl : ls.length < 2
  · simp only [hl, if_true]; trivial
  · simp only [hl, if_false]
    generalize dropCandidate _ _ _ _ = x
    obtain ⟨cs, f⟩ := x
    simp only
    generalize (if cs.isEmpty = true then _ else _) = m
    match f with
    | some (some (id, .removed, g)) =>
      refine Fr.trans ?_ (fr_collectGarbage _); exact Fr.of rfl
    | some (some (id, .newlyRedundant, g)) =>
      refine Fr.trans ?_ (fr_collectGarbage _); exact Fr.of rfl
    | some (some (id, .unchanged, g)) =>
      refine Fr.trans ?_ (fr_collectGarbage _); exact Fr.of rfl
    | some none => trivial
    | none => trivial

theorem pres_check (ls : List Lit) (hs : List Nat) : Pres env (checkClauseWithHashes env ls hs) := by
  unfold checkClauseWithHashes
  refine Pres.bind (Pres.modify fun s => ?_) fun _ => ?_
  · split
    · exact fr_rehash s
    · exact Fr.refl s
  · refine Pres.bind (Pres.modify fun s => Fr.of rfl) fun _ => ?_
    refine Pres.bind Pres.get fun s => ?_
    split
    · exact Pres.panic
    · refine Pres.bind (pres_ensureVars _) fun _ => ?_
      refine Pres.bind Pres.get fun s => ?_
      split
      · heard_tac
      · heard_tac
      · simp only
        generalize propHashes _ _ _ _ = x
        obtain ⟨r, e⟩ := x
        cases e <;> heard_tac

theorem pres_deleteVar (v : Nat) : Pres env (checkDeleteVar env v) := by
  unfold checkDeleteVar
  have := pres_ensureVar (env := env) v
  heard_tac

theorem pres_sampling_mode (v : Nat) (b : Bool) : Pres env (checkChangeSamplingMode env v b) := by
  unfold checkChangeSamplingMode
  have := pres_ensureVar (env := env) v
  refine Pres.bind this fun _ => Pres.bind Pres.get fun s => ?_
  simp only
  generalize (if b = true then SamplingMode.sample else SamplingMode.witness) = m
  heard_tac

theorem pres_at (r : Bool) (c : List Lit) (hs : List Nat) : Pres env (checkAtClause env r c hs) := by
  unfold checkAtClause
  generalize copyCanonical c = cc
  obtain ⟨tmp, taut⟩ := cc
  simp only
  split
  · exact Pres.fail _
  · refine Pres.bind (pres_check _ _) fun _ => Pres.bind (pres_store _ _) fun x => ?_
    obtain ⟨id, a⟩ := x
    cases a <;> heard_tac

theorem pres_justify (tmp : List Lit) (p : DeleteProof) : Pres env (justifyDelete tmp p) := by
  unfold justifyDelete
  heard_tac

theorem pres_deleteClause (c : List Lit) (p : DeleteProof) : Pres env (checkDeleteClause env c p) := by
  unfold checkDeleteClause
  generalize copyCanonical c = cc
  obtain ⟨tmp, taut⟩ := cc
  simp only
  split
  · exact Pres.fail _
  · refine Pres.bind (pres_justify _ _) fun x => Pres.bind (Pres.modify fun s => Fr.of rfl)
      fun _ => Pres.bind (pres_delete _ _) fun y => ?_
    obtain ⟨id, d⟩ := y
    cases d <;> heard_tac

theorem pres_units : ∀ us, Pres env (checkUnitClauses env us)
  | [] => Pres.pure _
  | (l, h) :: us => by
    unfold checkUnitClauses
    refine Pres.bind (pres_ensureVar _) fun _ => Pres.bind (pres_check _ _) fun _ =>
      Pres.bind (pres_storeUnit _) fun x => ?_
    obtain ⟨id, a⟩ := x
    have := pres_units us
    cases a <;> heard_tac

theorem pres_modelLits : ∀ ls seen, Pres env (modelLits ls seen)
  | [], _ => Pres.pure _
  | l :: ls, seen => by
    unfold modelLits
    have := pres_modelLits ls (l :: seen)
    heard_tac

theorem pres_model (a : List Lit) : Pres env (checkModel env a) := by
  unfold checkModel
  have := pres_modelLits (env := env) a []
  heard_tac

theorem pres_failed (c : List Lit) (hs : List Nat) : Pres env (checkFailedAssumptions env c hs) := by
  unfold checkFailedAssumptions
  generalize copyCanonical c = cc
  obtain ⟨tmp, taut⟩ := cc
  have := pres_check (env := env) (tmp.map Lit.neg) hs
  heard_tac

theorem pres_step (st : ProofStep) :
    Pres env (checkStep env st) := by
  unfold checkStep
  split
  · exact Pres.modify fun s => Fr.of rfl
  · exact pres_addUser _ _
  · exact pres_removeUser _
  · exact pres_deleteVar _
  · exact pres_sampling_mode _ _
  · exact pres_addClause _
  · exact pres_at _ _ _
  · exact pres_deleteClause _ _
  · exact pres_units _
  · exact Pres.modify fun s => Fr.of rfl
  · exact pres_model _
  · have := fun a => pres_samplings (env := env) a
    refine Pres.bind (this _) fun _ => ?_
    heard_tac
  · exact pres_failed _ _
  · exact Pres.modify fun s => Fr.of rfl



theorem of {m : CM Unit} (hm : Pres env m) {s s' : St} (h : m s = .ok () s') (k : Heard env s) : Heard env s' := by
  have := hm s
  rw [h] at this
  exact this k

theorem pres_conflicts : Pres env (processUnitConflicts env) := by
  unfold processUnitConflicts
  heard_tac

theorem pres_self (st : ProofStep) : Pres env (selfCheckStep env st) := by
  unfold selfCheckStep
  exact Pres.bind (Pres.modify fun s => Fr.of rfl) fun _ => pres_step st

end Varisat.Checker.Heard
