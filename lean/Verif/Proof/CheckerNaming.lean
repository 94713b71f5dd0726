import Verif.Proof.CheckerFrame
import Verif.Proof.CheckerComplete
import Verif.Spec.Transcript
/-! As long as variables keep their numbers, the transcript repeats what the processors were told. -/
namespace Varisat.Checker.Naming

/-- Variables that have a name have their own number as name. -/
def Own (s : St) : Prop := ∀ v u, s.userVar v = some u → u = v

/-- The transcript `ts` for the steps `o`. -/
inductive Tells : List CheckedStep → List TranscriptStep → Prop
  | nil : Tells [] []
  | skip {o ts st} (s : St) : Tells o ts → transcriptStep s st = some none → Tells (o ++ [st]) ts
  | step {o ts st t} (s : St) : Tells o ts → Own s → transcriptStep s st = some (some t) → Tells (o ++ [st]) (ts ++ [t])

def Inv (s : St) : Prop := Own s ∧ Tells s.out s.tout

def Fr (s s' : St) : Prop := Inv s → Inv s'

theorem Fr.refl (s : St) : Fr s s := id
theorem Fr.trans {s t u : St} (h : Fr s t) (h' : Fr t u) : Fr s u := fun x => h' (h x)
theorem Fr.of {s s' : St} (h : s'.out = s.out) (h' : s'.tout = s.tout) (h'' : s'.userVar = s.userVar) : Fr s s' := by
  unfold Fr Inv Own; rw [h, h', h'']; exact id

/-- `m` preserves the frame if it succeeds. -/
def Pres {α : Type} (m : CM α) : Prop := ∀ s, match m s with
  | .ok _ s' => Fr s s'
  | .error _ _ => True

theorem Pres.pure {α : Type} (a : α) : Pres (pure a : CM α) := fun s => Fr.refl s
theorem Pres.fail {α : Type} (w : Why) : Pres (fail w : CM α) := fun _ => trivial
theorem Pres.panic {α : Type} : Pres (panic : CM α) := fun _ => trivial
theorem Pres.get : Pres getSt := fun s => Fr.refl s

theorem Pres.bind {α β : Type} {m : CM α} {f : α → CM β} (h : Pres m) (hf : ∀ a, Pres (f a)) :
    Pres (m >>= f) := by
  intro s
  have h1 := h s
  show match EStateM.bind m f s with | .ok _ s' => Fr s s' | .error _ s' => True
  unfold EStateM.bind
  cases hm : m s with
  | ok a s1 =>
    rw [hm] at h1
    have h2 := hf a s1
    simp only at h1 ⊢
    cases hfa : f a s1 with
    | ok b s2 => rw [hfa] at h2; exact h1.trans h2
    | error e s2 => trivial
  | error e s1 => trivial

theorem Pres.modify {f : St → St} (h : ∀ s, Fr s (f s)) : Pres (modifySt f) := fun s => h s

theorem pres_emit {env : Env} (ht : env.hasTranscript = true) (st : CheckedStep) : Pres (emit env st) := by
  intro s
  unfold emit
  simp only
  by_cases hp : (env.hasProc && !env.proc (s.out ++ [st])) = true
  · rw [if_pos hp]; trivial
  · rw [if_neg hp, if_pos ht]
    generalize hts : transcriptStep { s with out := s.out ++ [st] } st = ts
    match ts with
    | none => trivial
    | some none => exact fun hi => ⟨hi.1, .skip _ hi.2 hts⟩
    | some (some t) =>
      simp only
      by_cases hq : env.transcript (s.tout ++ [t]) = true
      · rw [if_pos hq]; exact fun hi => ⟨hi.1, .step { s with out := s.out ++ [st] } hi.2 hi.1 hts⟩
      · rw [if_neg hq]; trivial

theorem Pres.ite {α : Type} {p : Prop} [Decidable p] {m n : CM α} (h1 : Pres m) (h2 : Pres n) :
    Pres (if p then m else n) := by split <;> assumption

macro "naming_tac" : tactic => `(tactic| repeat' first
  | exact Pres.pure _ | exact Pres.fail _ | exact Pres.panic | exact Pres.get | exact pres_emit (by assumption) _
  | (refine Pres.modify fun s => ?_; exact Fr.of rfl rfl rfl)
  | assumption
  | (refine Pres.bind ?_ fun _ => ?_)
  | split)

theorem fr_ensureVar (v : Nat) (s : St) : Fr s (ensureVar v s) := by
  obtain ⟨n, h⟩ := ensureVar_eq v s; rw [h]; exact Fr.of rfl rfl rfl
theorem fr_ensureVars (ls : List Lit) (s : St) : Fr s (ensureVars ls s) := by
  obtain ⟨n, h⟩ := ensureVars_eq ls s; rw [h]; exact Fr.of rfl rfl rfl
theorem fr_rehash (env : Env) (s : St) : Fr s (rehash env s) := Fr.of rfl rfl rfl
theorem fr_collectGarbage (env : Env) (s : St) : Fr s (collectGarbage env s) := by
  unfold collectGarbage; split
  · exact Fr.refl s
  · exact Fr.of rfl rfl rfl

theorem pres_ensureVar (v : Nat) : Pres (modifySt (ensureVar v)) := Pres.modify (fr_ensureVar v)
theorem pres_ensureVars (ls : List Lit) : Pres (modifySt (ensureVars ls)) := Pres.modify (fr_ensureVars ls)

theorem pres_sampling (v : Nat) : Pres (ensureSamplingVar v) := by
  unfold ensureSamplingVar
  have := pres_ensureVar v
  naming_tac

theorem pres_samplings : ∀ ls, Pres (ensureSamplingVars ls)
  | [] => Pres.pure _
  | l :: ls => by
    unfold ensureSamplingVars
    exact Pres.bind (pres_sampling _) fun _ => pres_samplings ls

/-- A variable gets its own number as name, or loses its name. -/
theorem fr_name {s s' : St} (h : s'.out = s.out) (h' : s'.tout = s.tout) {g : Nat} {o : Option Nat} (ho : ∀ u ∈ o, u = g)
    (h'' : s'.userVar = upd s.userVar g o) : Fr s s' := by
  unfold Fr Inv Own
  rw [h, h', h'']
  rintro ⟨h1, h2⟩
  refine ⟨fun v u k => ?_, h2⟩
  unfold upd at k
  split at k
  · rename_i e; rw [e]; exact ho u k
  · exact h1 v u k

theorem pres_addUser {env : Env} (ht : env.hasTranscript = true) (g : Nat) : Pres (addUserMapping env g g) := by
  unfold addUserMapping
  refine Pres.bind (pres_ensureVar g) fun _ => Pres.bind Pres.get fun s => ?_
  split
  · exact Pres.fail _
  split
  · exact Pres.fail _
  split
  · exact Pres.fail _
  refine Pres.bind (Pres.modify fun s => fr_name (g := g) (o := some g) rfl rfl (by simp) rfl) fun _ => pres_emit ht _

theorem pres_removeUser {env : Env} (ht : env.hasTranscript = true) (g : Nat) : Pres (removeUserMapping env g) := by
  unfold removeUserMapping
  refine Pres.bind (pres_ensureVar g) fun _ => Pres.bind Pres.get fun s => ?_
  split
  · exact Pres.fail _
  exact Pres.bind (pres_emit ht _) fun _ => Pres.modify fun s => fr_name (g := g) (o := none) rfl rfl (by simp) rfl

theorem pres_storeUnit (l : Lit) : Pres (storeUnitClause l) := by
  unfold storeUnitClause
  naming_tac

theorem pres_storeLong (ls : List Lit) (r : Bool) : Pres (storeLong ls r) := by
  intro s
  unfold storeLong
  simp only
  generalize bumpCandidate _ _ _ _ = x
  match x with
  | some (cs, id, res) => exact Fr.of rfl rfl rfl
  | none => exact Fr.of rfl rfl rfl

theorem pres_store (ls : List Lit) (r : Bool) : Pres (storeClause ls r) := by
  unfold storeClause
  have h1 := pres_ensureVars ls
  have h2 := fun l => pres_storeUnit l
  have h3 := fun ls => pres_storeLong ls r
  refine Pres.bind h1 fun _ => ?_
  split
  · naming_tac
  · exact h2 _
  · exact h3 _

theorem pres_addClause {env : Env} (ht : env.hasTranscript = true) (c : List Lit) : Pres (addClause env c) := by
  unfold addClause
  have h1 := fun ls => pres_samplings ls
  have h2 := fun ls => pres_store ls false
  refine Pres.bind Pres.get fun s => ?_
  split
  · exact Pres.pure _
  · generalize copyCanonical c = cc
    obtain ⟨tmp, taut⟩ := cc
    simp only
    split
    · naming_tac
    · refine Pres.bind (h1 _) fun _ => Pres.bind (h2 _) fun r => ?_
      obtain ⟨id, a⟩ := r
      cases a <;> naming_tac

theorem pres_delete (env : Env) (ls : List Lit) (r : Bool) : Pres (deleteClause env ls r) := by
  intro s
  unfold deleteClause
  by_cases hl : ls.length < 2
  · simp only [hl, if_true]; trivial
  · simp only [hl, if_false]
    generalize dropCandidate _ _ _ _ = x
    obtain ⟨cs, f⟩ := x
    simp only
    generalize (if cs.isEmpty = true then _ else _) = m
    match f with
    | some (some (id, .removed, g)) =>
      refine Fr.trans ?_ (fr_collectGarbage env _); exact Fr.of rfl rfl rfl
    | some (some (id, .newlyRedundant, g)) =>
      refine Fr.trans ?_ (fr_collectGarbage env _); exact Fr.of rfl rfl rfl
    | some (some (id, .unchanged, g)) =>
      refine Fr.trans ?_ (fr_collectGarbage env _); exact Fr.of rfl rfl rfl
    | some none => trivial
    | none => trivial

theorem pres_check (env : Env) (ls : List Lit) (hs : List Nat) : Pres (checkClauseWithHashes env ls hs) := by
  unfold checkClauseWithHashes
  refine Pres.bind (Pres.modify fun s => ?_) fun _ => ?_
  · split
    · exact fr_rehash env s
    · exact Fr.refl s
  · refine Pres.bind (Pres.modify fun s => Fr.of rfl rfl rfl) fun _ => ?_
    refine Pres.bind Pres.get fun s => ?_
    split
    · exact Pres.panic
    · refine Pres.bind (pres_ensureVars _) fun _ => ?_
      refine Pres.bind Pres.get fun s => ?_
      split
      · naming_tac
      · naming_tac
      · simp only
        generalize propHashes _ _ _ _ = x
        obtain ⟨r, e⟩ := x
        cases e <;> naming_tac

theorem pres_deleteVar {env : Env} (ht : env.hasTranscript = true) (v : Nat) : Pres (checkDeleteVar env v) := by
  unfold checkDeleteVar
  have h := Pres.modify (f := fun s => { s with userVar := upd s.userVar v none, mode := upd s.mode v .sample })
    fun s => fr_name (g := v) (o := none) rfl rfl (by simp) rfl
  refine Pres.bind (pres_ensureVar v) fun _ => Pres.bind Pres.get fun s => ?_
  split
  · exact Pres.fail _
  split
  · exact Pres.fail _
  split <;> naming_tac
  all_goals exact h

theorem pres_sampling_mode {env : Env} (ht : env.hasTranscript = true) (v : Nat) (b : Bool) : Pres (checkChangeSamplingMode env v b) := by
  unfold checkChangeSamplingMode
  have := pres_ensureVar v
  refine Pres.bind this fun _ => Pres.bind Pres.get fun s => ?_
  simp only
  generalize (if b = true then SamplingMode.sample else SamplingMode.witness) = m
  naming_tac

theorem pres_at {env : Env} (ht : env.hasTranscript = true) (r : Bool) (c : List Lit) (hs : List Nat) : Pres (checkAtClause env r c hs) := by
  unfold checkAtClause
  generalize copyCanonical c = cc
  obtain ⟨tmp, taut⟩ := cc
  simp only
  split
  · exact Pres.fail _
  · refine Pres.bind (pres_check _ _ _) fun _ => Pres.bind (pres_store _ _) fun x => ?_
    obtain ⟨id, a⟩ := x
    cases a <;> naming_tac

theorem pres_justify (tmp : List Lit) (p : DeleteProof) : Pres (justifyDelete tmp p) := by
  unfold justifyDelete
  naming_tac

theorem pres_deleteClause {env : Env} (ht : env.hasTranscript = true) (c : List Lit) (p : DeleteProof) : Pres (checkDeleteClause env c p) := by
  unfold checkDeleteClause
  generalize copyCanonical c = cc
  obtain ⟨tmp, taut⟩ := cc
  simp only
  split
  · exact Pres.fail _
  · refine Pres.bind (pres_justify _ _) fun x => Pres.bind (Pres.modify fun s => Fr.of rfl rfl rfl)
      fun _ => Pres.bind (pres_delete _ _ _) fun y => ?_
    obtain ⟨id, d⟩ := y
    cases d <;> naming_tac

theorem pres_units {env : Env} (ht : env.hasTranscript = true) : ∀ us, Pres (checkUnitClauses env us)
  | [] => Pres.pure _
  | (l, h) :: us => by
    unfold checkUnitClauses
    refine Pres.bind (pres_ensureVar _) fun _ => Pres.bind (pres_check _ _ _) fun _ =>
      Pres.bind (pres_storeUnit _) fun x => ?_
    obtain ⟨id, a⟩ := x
    have := pres_units ht us
    cases a <;> naming_tac

theorem pres_modelLits : ∀ ls seen, Pres (modelLits ls seen)
  | [], _ => Pres.pure _
  | l :: ls, seen => by
    unfold modelLits
    have := pres_modelLits ls (l :: seen)
    naming_tac

theorem pres_model {env : Env} (ht : env.hasTranscript = true) (a : List Lit) : Pres (checkModel env a) := by
  unfold checkModel
  have := pres_modelLits a []
  naming_tac

theorem pres_failed {env : Env} (ht : env.hasTranscript = true) (c : List Lit) (hs : List Nat) : Pres (checkFailedAssumptions env c hs) := by
  unfold checkFailedAssumptions
  generalize copyCanonical c = cc
  obtain ⟨tmp, taut⟩ := cc
  have := pres_check env (tmp.map Lit.neg) hs
  naming_tac

/-- The step gives a variable no name but its own number. -/
def OwnStep (st : ProofStep) : Prop := ∀ g u, st = .userVarName g (some u) → u = g

theorem pres_step {env : Env} (ht : env.hasTranscript = true) (st : ProofStep) (hst : OwnStep st) :
    Pres (checkStep env st) := by
  unfold checkStep
  split
  · exact Pres.modify fun s => Fr.of rfl rfl rfl
  · rename_i g u
    obtain rfl := hst g u rfl
    exact pres_addUser ht _
  · exact pres_removeUser ht _
  · exact pres_deleteVar ht _
  · exact pres_sampling_mode ht _ _
  · exact pres_addClause ht _
  · exact pres_at ht _ _ _
  · exact pres_deleteClause ht _ _
  · exact pres_units ht _
  · exact Pres.modify fun s => Fr.of rfl rfl rfl
  · exact pres_model ht _
  · have := fun a => pres_samplings a
    refine Pres.bind (this _) fun _ => ?_
    naming_tac
  · exact pres_failed ht _ _
  · exact Pres.modify fun s => Fr.of rfl rfl rfl


theorem of {m : CM Unit} (hm : Pres m) {s s' : St} (h : m s = .ok () s') (k : Inv s) : Inv s' := by
  have := hm s
  rw [h] at this
  exact this k

/-- No variable gets a name but its own number. -/
def OwnNames (ops : List Op) : Prop := ∀ g u, Op.step (.userVarName g (some u)) ∈ ops → u = g

theorem pres_exec {env : Env} (ht : env.hasTranscript = true) (op : Op) (ho : ∀ st, op = .step st → OwnStep st) : Pres (op.exec env) := by
  cases op with
  | add c => exact pres_addClause ht c
  | step st =>
    refine Pres.bind (Pres.modify fun s => Fr.of rfl rfl rfl) fun _ => pres_step ht st (ho st rfl)

theorem pres_execs {env : Env} (ht : env.hasTranscript = true) : ∀ ops, OwnNames ops → Pres (execs env ops)
  | [], _ => Pres.pure _
  | op :: ops, h => by
    unfold execs
    refine Pres.bind (pres_exec ht op ?_) fun _ => pres_execs ht ops fun g u k => h g u (List.mem_cons_of_mem _ k)
    rintro st rfl g u rfl
    exact h g u (List.mem_cons_self ..)

theorem pres_conflicts {env : Env} (ht : env.hasTranscript = true) : Pres (processUnitConflicts env) := by
  unfold processUnitConflicts
  naming_tac

end Varisat.Checker.Naming
