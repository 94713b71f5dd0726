import Verif.Proof.CheckerFrame
/-! What the checker keeps in all steps but those on variables: names, modes and number of variables. -/
namespace Varisat.Checker

/-- Pending removals of names only do not start a rehash. -/
def BufOk (s : St) : Prop := s.rename = false → ∀ b ∈ s.buffered, b.2 = none

structure Keep (s s' : St) : Prop where
  user : s'.userVar = s.userVar
  used : s'.usedUser = s.usedUser
  mode : s'.mode = s.mode
  nvars : s.nvars ≤ s'.nvars
  names : applyNames s'.buffered s'.names = applyNames s.buffered s.names
  buf : BufOk s → BufOk s'

theorem Keep.refl (s : St) : Keep s s := ⟨rfl, rfl, rfl, Nat.le_refl _, rfl, id⟩
theorem Keep.trans {s t u : St} (h : Keep s t) (h' : Keep t u) : Keep s u :=
  ⟨h'.user.trans h.user, h'.used.trans h.used, h'.mode.trans h.mode, Nat.le_trans h.nvars h'.nvars,
    h'.names.trans h.names, fun x => h'.buf (h.buf x)⟩

/-- Changes of other fields. -/
theorem Keep.of {s s' : St} (h : s'.userVar = s.userVar ∧ s'.usedUser = s.usedUser ∧ s'.mode = s.mode ∧
    s'.nvars = s.nvars ∧ s'.buffered = s.buffered ∧ s'.names = s.names ∧ s'.rename = s.rename) : Keep s s' :=
  ⟨h.1, h.2.1, h.2.2.1, by rw [h.2.2.2.1], by rw [h.2.2.2.2.1, h.2.2.2.2.2.1], by
    unfold BufOk; rw [h.2.2.2.2.1, h.2.2.2.2.2.2]; exact id⟩

/-- `m` keeps them, whether it succeeds or fails. -/
def Keeps {α : Type} (m : CM α) : Prop := ∀ s, match m s with
  | .ok _ s' => Keep s s'
  | .error _ s' => Keep s s'

theorem Keeps.pure {α : Type} (a : α) : Keeps (pure a : CM α) := fun s => Keep.refl s
theorem Keeps.fail {α : Type} (w : Why) : Keeps (fail w : CM α) := fun s => Keep.refl s
theorem Keeps.panic {α : Type} : Keeps (panic : CM α) := fun s => Keep.refl s
theorem Keeps.get : Keeps getSt := fun s => Keep.refl s

theorem Keeps.bind {α β : Type} {m : CM α} {f : α → CM β} (h : Keeps m) (hf : ∀ a, Keeps (f a)) :
    Keeps (m >>= f) := by
  intro s
  have h1 := h s
  show match EStateM.bind m f s with | .ok _ s' => Keep s s' | .error _ s' => Keep s s'
  unfold EStateM.bind
  cases hm : m s with
  | ok a s1 =>
    rw [hm] at h1
    have h2 := hf a s1
    simp only at h1 ⊢
    cases hfa : f a s1 <;> rw [hfa] at h2 <;> exact h1.trans h2
  | error e s1 => rw [hm] at h1; exact h1

theorem Keeps.modify {f : St → St} (h : ∀ s, Keep s (f s)) : Keeps (modifySt f) := fun s => h s

theorem keep_emit (env : Env) (st : CheckedStep) : Keeps (emit env st) := by
  intro s
  have key : ∀ o t, Keep s { s with out := o, tout := t } := fun o t => Keep.of ⟨rfl, rfl, rfl, rfl, rfl, rfl, rfl⟩
  unfold emit
  simp only
  by_cases h1 : (env.hasProc && !env.proc (s.out ++ [st])) = true
  · simp only [h1, if_true]; exact key _ _
  · simp only [h1, Bool.false_eq_true, if_false]
    by_cases h2 : env.hasTranscript = true
    · simp only [h2, if_true]
      generalize transcriptStep _ st = ts
      match ts with
      | none => exact key _ _
      | some none => exact key _ _
      | some (some t) =>
        simp only
        by_cases h3 : env.transcript (s.tout ++ [t]) = true
        · simp only [h3, if_true]; exact key _ _
        · simp only [h3, Bool.false_eq_true, if_false]; exact key _ _
    · simp only [h2, Bool.false_eq_true, if_false]; exact key _ _

macro "keep_tac" : tactic => `(tactic| repeat' first
  | exact Keeps.pure _ | exact Keeps.fail _ | exact Keeps.panic | exact Keeps.get | exact keep_emit _ _
  | (refine Keeps.modify fun s => ?_; exact Keep.of ⟨rfl, rfl, rfl, rfl, rfl, rfl, rfl⟩)
  | assumption
  | (refine Keeps.bind ?_ fun _ => ?_)
  | split)

theorem kp_ensureVar (v : Nat) (s : St) : Keep s (ensureVar v s) := by
  unfold ensureVar
  split
  · exact ⟨rfl, rfl, rfl, by dsimp only; omega, rfl, fun h => h⟩
  · exact Keep.refl s
theorem kp_ensureVars (ls : List Lit) : ∀ s : St, Keep s (ensureVars ls s) := by
  unfold ensureVars
  induction ls with
  | nil => exact fun s => Keep.refl s
  | cons l ls ih => exact fun s => (kp_ensureVar l.var s).trans (ih _)
theorem kp_rehash (env : Env) (s : St) : Keep s (rehash env s) :=
  ⟨rfl, rfl, rfl, Nat.le_refl _, rfl, fun _ _ b hb => by simp [rehash] at hb⟩
theorem kp_collectGarbage (env : Env) (s : St) : Keep s (collectGarbage env s) := by
  unfold collectGarbage; split
  · exact Keep.refl s
  · exact Keep.of ⟨rfl, rfl, rfl, rfl, rfl, rfl, rfl⟩

theorem keep_ensureVar (v : Nat) : Keeps (modifySt (ensureVar v)) := Keeps.modify (kp_ensureVar v)
theorem keep_ensureVars (ls : List Lit) : Keeps (modifySt (ensureVars ls)) := Keeps.modify (kp_ensureVars ls)

theorem keep_sampling (v : Nat) : Keeps (ensureSamplingVar v) := by
  unfold ensureSamplingVar
  have := keep_ensureVar v
  keep_tac

theorem keep_samplings : ∀ ls, Keeps (ensureSamplingVars ls)
  | [] => Keeps.pure _
  | l :: ls => by
    unfold ensureSamplingVars
    exact Keeps.bind (keep_sampling _) fun _ => keep_samplings ls

theorem keep_storeUnit (l : Lit) : Keeps (storeUnitClause l) := by
  unfold storeUnitClause
  keep_tac

theorem keep_storeLong (ls : List Lit) (r : Bool) : Keeps (storeLong ls r) := by
  intro s
  unfold storeLong
  simp only
  generalize bumpCandidate _ _ _ _ = x
  match x with
  | some (cs, id, res) => exact Keep.of ⟨rfl, rfl, rfl, rfl, rfl, rfl, rfl⟩
  | none => exact Keep.of ⟨rfl, rfl, rfl, rfl, rfl, rfl, rfl⟩

theorem keep_store (ls : List Lit) (r : Bool) : Keeps (storeClause ls r) := by
  unfold storeClause
  have h1 := keep_ensureVars ls
  have h2 := fun l => keep_storeUnit l
  have h3 := fun ls => keep_storeLong ls r
  refine Keeps.bind h1 fun _ => ?_
  split
  · keep_tac
  · exact h2 _
  · exact h3 _

theorem keep_addClause (env : Env) (c : List Lit) : Keeps (addClause env c) := by
  unfold addClause
  have h1 := fun ls => keep_samplings ls
  have h2 := fun ls => keep_store ls false
  refine Keeps.bind Keeps.get fun s => ?_
  split
  · exact Keeps.pure _
  · generalize copyCanonical c = cc
    obtain ⟨tmp, taut⟩ := cc
    simp only
    split
    · keep_tac
    · refine Keeps.bind (h1 _) fun _ => Keeps.bind (h2 _) fun r => ?_
      obtain ⟨id, a⟩ := r
      cases a <;> keep_tac

theorem keep_delete (env : Env) (ls : List Lit) (r : Bool) : Keeps (deleteClause env ls r) := by
  intro s
  unfold deleteClause
  by_cases hl : ls.length < 2
  · simp only [hl, if_true]; exact Keep.refl s
  · simp only [hl, if_false]
    generalize dropCandidate _ _ _ _ = x
    obtain ⟨cs, f⟩ := x
    simp only
    generalize (if cs.isEmpty = true then _ else _) = m
    match f with
    | some (some (id, .removed, g)) =>
      refine Keep.trans ?_ (kp_collectGarbage env _); exact Keep.of ⟨rfl, rfl, rfl, rfl, rfl, rfl, rfl⟩
    | some (some (id, .newlyRedundant, g)) =>
      refine Keep.trans ?_ (kp_collectGarbage env _); exact Keep.of ⟨rfl, rfl, rfl, rfl, rfl, rfl, rfl⟩
    | some (some (id, .unchanged, g)) =>
      refine Keep.trans ?_ (kp_collectGarbage env _); exact Keep.of ⟨rfl, rfl, rfl, rfl, rfl, rfl, rfl⟩
    | some none => exact Keep.of ⟨rfl, rfl, rfl, rfl, rfl, rfl, rfl⟩
    | none => exact Keep.of ⟨rfl, rfl, rfl, rfl, rfl, rfl, rfl⟩

theorem keep_check (env : Env) (ls : List Lit) (hs : List Nat) : Keeps (checkClauseWithHashes env ls hs) := by
  unfold checkClauseWithHashes
  refine Keeps.bind (Keeps.modify fun s => ?_) fun _ => ?_
  · split
    · exact kp_rehash env s
    · exact Keep.refl s
  · refine Keeps.bind (Keeps.modify fun s => Keep.of ⟨rfl, rfl, rfl, rfl, rfl, rfl, rfl⟩) fun _ => ?_
    refine Keeps.bind Keeps.get fun s => ?_
    split
    · exact Keeps.panic
    · refine Keeps.bind (keep_ensureVars _) fun _ => ?_
      refine Keeps.bind Keeps.get fun s => ?_
      split
      · keep_tac
      · keep_tac
      · simp only
        generalize propHashes _ _ _ _ = x
        obtain ⟨r, e⟩ := x
        cases e <;> keep_tac

theorem keep_at (env : Env) (r : Bool) (c : List Lit) (hs : List Nat) : Keeps (checkAtClause env r c hs) := by
  unfold checkAtClause
  generalize copyCanonical c = cc
  obtain ⟨tmp, taut⟩ := cc
  simp only
  split
  · exact Keeps.fail _
  · refine Keeps.bind (keep_check _ _ _) fun _ => Keeps.bind (keep_store _ _) fun x => ?_
    obtain ⟨id, a⟩ := x
    cases a <;> keep_tac

theorem keep_justify (tmp : List Lit) (p : DeleteProof) : Keeps (justifyDelete tmp p) := by
  unfold justifyDelete
  keep_tac

theorem keep_deleteClause (env : Env) (c : List Lit) (p : DeleteProof) : Keeps (checkDeleteClause env c p) := by
  unfold checkDeleteClause
  generalize copyCanonical c = cc
  obtain ⟨tmp, taut⟩ := cc
  simp only
  split
  · exact Keeps.fail _
  · refine Keeps.bind (keep_justify _ _) fun x => Keeps.bind (Keeps.modify fun s => Keep.of ⟨rfl, rfl, rfl, rfl, rfl, rfl, rfl⟩)
      fun _ => Keeps.bind (keep_delete _ _ _) fun y => ?_
    obtain ⟨id, d⟩ := y
    cases d <;> keep_tac

theorem keep_units (env : Env) : ∀ us, Keeps (checkUnitClauses env us)
  | [] => Keeps.pure _
  | (l, h) :: us => by
    unfold checkUnitClauses
    refine Keeps.bind (keep_ensureVar _) fun _ => Keeps.bind (keep_check _ _ _) fun _ =>
      Keeps.bind (keep_storeUnit _) fun x => ?_
    obtain ⟨id, a⟩ := x
    have := keep_units env us
    cases a <;> keep_tac

theorem keep_modelLits : ∀ ls seen, Keeps (modelLits ls seen)
  | [], _ => Keeps.pure _
  | l :: ls, seen => by
    unfold modelLits
    have := keep_modelLits ls (l :: seen)
    keep_tac

theorem keep_model (env : Env) (a : List Lit) : Keeps (checkModel env a) := by
  unfold checkModel
  have := keep_modelLits a []
  keep_tac

theorem keep_failed (env : Env) (c : List Lit) (hs : List Nat) : Keeps (checkFailedAssumptions env c hs) := by
  unfold checkFailedAssumptions
  generalize copyCanonical c = cc
  obtain ⟨tmp, taut⟩ := cc
  have := keep_check env (tmp.map Lit.neg) hs
  keep_tac


/-- The result of a step that keeps them. -/
theorem Keeps.ok {α : Type} {m : CM α} (h : Keeps m) {s s' : St} {a : α} (he : m s = .ok a s') : Keep s s' := by
  have := h s
  rw [he] at this
  exact this

end Varisat.Checker
