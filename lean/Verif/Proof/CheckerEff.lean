import Verif.Proof.CheckerRup
/-! What each checker operation does, as relations between the state before and after. -/
namespace Varisat.Checker

/-! ### Weakest preconditions -/

def wp {α : Type} (m : CM α) (Q : α → St → Prop) (E : Err → St → Prop) (s : St) : Prop :=
  match m s with
  | .ok a s' => Q a s'
  | .error e s' => E e s'

variable {α β : Type} {Q : α → St → Prop} {E : Err → St → Prop} {s : St}

theorem wp_bind (m : CM α) (f : α → CM β) (Q : β → St → Prop) :
    wp (m >>= f) Q E s = wp m (fun a s => wp (f a) Q E s) E s := by
  show (match (EStateM.bind m f) s with | .ok a s' => Q a s' | .error e s' => E e s') = _
  unfold wp EStateM.bind
  cases m s <;> rfl

theorem wp_pure (a : α) : wp (pure a : CM α) Q E s = Q a s := rfl
theorem wp_modify (f : St → St) {Q : Unit → St → Prop} : wp (modifySt f) Q E s = Q () (f s) := rfl
theorem wp_get {Q : St → St → Prop} : wp getSt Q E s = Q s s := rfl
theorem wp_fail (w : Why) : wp (fail w : CM α) Q E s = E (.checkFailed s.step w) s := rfl
theorem wp_panic : wp (panic : CM α) Q E s = E .panic s := rfl

theorem wp_ok {m : CM α} {a s'} (h : wp m Q E s) (hm : m s = .ok a s') : Q a s' := by
  unfold wp at h; rw [hm] at h; exact h
theorem wp_err {m : CM α} {e s'} (h : wp m Q E s) (hm : m s = .error e s') : E e s' := by
  unfold wp at h; rw [hm] at h; exact h

theorem wp_mono {m : CM α} {Q' E'} (h : wp m Q E s) (hQ : ∀ a s', Q a s' → Q' a s')
    (hE : ∀ e s', E e s' → E' e s') : wp m Q' E' s := by
  unfold wp at h ⊢
  cases hm : m s <;> rw [hm] at h
  · exact hQ _ _ h
  · exact hE _ _ h

/-! ### Quiet transitions -/

/-- The stored clauses by id, as they may appear in justifications. -/
def HasId (s : St) (id : Nat) (c : List Lit) : Prop :=
  (∃ e ∈ ents s.buffer s.clauses, e.id = id ∧ e.lits = c) ∨
  (∃ v b, s.units v = some ⟨.global id, b⟩ ∧ c = [Lit.mk' v b])

/-- What the propagation code relies on between steps. -/
structure Pre (s : St) : Prop where
  wf : WFdb s.buffer s.hashBits s.names s.clauses
  glob : ∀ v u, s.units v = some u → ∃ id, u.id = .global id
  trail : s.trail = []

/-- Clause database, assignment and everything derived from them are unchanged. -/
structure Same (s s' : St) : Prop where
  wf : WFdb s'.buffer s'.hashBits s'.names s'.clauses
  perm : (ents s'.buffer s'.clauses).Perm (ents s.buffer s.clauses)
  units : s'.units = s.units
  unsat : s'.unsat = s.unsat
  conflict : s'.unitConflict = s.unitConflict
  nextId : s'.nextId = s.nextId
  count : s'.clauseCount = s.clauseCount
  trail : s'.trail = s.trail
  assumptions : s'.assumptions = s.assumptions

/-- Nothing but bookkeeping changed; the steps `o` were passed to the processors. -/
structure Quiet (s : St) (o : List CheckedStep) (s' : St) : Prop extends Same s s' where
  prevId : s'.prevId = s.prevId
  prevLits : s'.prevLits = s.prevLits
  out : s'.out = s.out ++ o

theorem Same.refl {s : St} (h : WFdb s.buffer s.hashBits s.names s.clauses) : Same s s :=
  ⟨h, List.Perm.refl _, rfl, rfl, rfl, rfl, rfl, rfl, rfl⟩

theorem Quiet.refl {s : St} (h : WFdb s.buffer s.hashBits s.names s.clauses) : Quiet s [] s :=
  ⟨Same.refl h, rfl, rfl, by simp⟩

theorem Same.trans {s t u : St} (h : Same s t) (h' : Same t u) : Same s u :=
  ⟨h'.wf, h'.perm.trans h.perm, h'.units.trans h.units, h'.unsat.trans h.unsat,
    h'.conflict.trans h.conflict, h'.nextId.trans h.nextId, h'.count.trans h.count,
    h'.trail.trans h.trail, h'.assumptions.trans h.assumptions⟩

theorem Quiet.trans {s t u : St} {o p} (h : Quiet s o t) (h' : Quiet t p u) : Quiet s (o ++ p) u :=
  ⟨h.toSame.trans h'.toSame, h'.prevId.trans h.prevId, h'.prevLits.trans h.prevLits, by
    rw [h'.out, h.out, List.append_assoc]⟩

theorem Same.pre {s t : St} (h : Same s t) (hp : Pre s) : Pre t :=
  ⟨h.wf, by rw [h.units]; exact hp.glob, by rw [h.trail]; exact hp.trail⟩

theorem Same.hasId {s t : St} (h : Same s t) (id c) : HasId t id c ↔ HasId s id c := by
  unfold HasId
  rw [h.units]
  constructor
  · rintro (⟨e, he, h1⟩ | h1)
    · exact Or.inl ⟨e, h.perm.mem_iff.1 he, h1⟩
    · exact Or.inr h1
  · rintro (⟨e, he, h1⟩ | h1)
    · exact Or.inl ⟨e, h.perm.mem_iff.2 he, h1⟩
    · exact Or.inr h1

/-- Errors that come from a processor or are panics. -/
def External (e : Err) : Prop := e = .processor ∨ e = .panic

theorem wp_emit {env : Env} {st : CheckedStep} {Q : Unit → St → Prop}
    (hQ : ∀ t, Q () { s with
      out := s.out ++ [st]
      tout := t })
    (hE : ∀ e s', External e → E e s') : wp (emit env st) Q E s := by
  unfold wp emit
  simp only
  split
  · rename_i a s' h
    split at h
    · simp at h
    · split at h
      · split at h
        · simp at h
        · simp only [EStateM.Result.ok.injEq] at h
          rw [← h.2]; exact hQ s.tout
        · split at h
          · simp only [EStateM.Result.ok.injEq] at h
            rw [← h.2]; exact hQ _
          · simp at h
      · simp only [EStateM.Result.ok.injEq] at h
        rw [← h.2]; exact hQ s.tout
  · rename_i e s' h
    apply hE
    split at h
    · simp only [EStateM.Result.error.injEq] at h; exact Or.inl h.1.symm
    · split at h
      · split at h
        · simp only [EStateM.Result.error.injEq] at h; exact Or.inr h.1.symm
        · simp at h
        · split at h
          · simp at h
          · simp only [EStateM.Result.error.injEq] at h; exact Or.inl h.1.symm
      · simp at h

/-- `emit` as a quiet transition. -/
theorem wp_emit_quiet {env : Env} {st : CheckedStep} {Q : Unit → St → Prop}
    (hw : WFdb s.buffer s.hashBits s.names s.clauses)
    (hQ : ∀ s', Quiet s [st] s' → s'.traceIds = s.traceIds → Q () s')
    (hE : ∀ e s', External e → E e s') : wp (emit env st) Q E s :=
  wp_emit (fun _ => hQ _ ⟨⟨hw, List.Perm.refl _, rfl, rfl, rfl, rfl, rfl, rfl, rfl⟩, rfl, rfl, rfl⟩ rfl) hE

theorem ensureVar_eq (v : Nat) (s : St) : ∃ n, ensureVar v s = { s with nvars := n } := by
  unfold ensureVar; split
  · exact ⟨_, rfl⟩
  · exact ⟨s.nvars, rfl⟩

theorem ensureVars_eq (lits : List Lit) (s : St) : ∃ n, ensureVars lits s = { s with nvars := n } := by
  unfold ensureVars
  induction lits generalizing s with
  | nil => exact ⟨s.nvars, rfl⟩
  | cons l ls ih =>
    obtain ⟨n, h⟩ := ensureVar_eq l.var s
    simp only [List.foldl_cons, h]
    obtain ⟨k, h⟩ := ih { s with nvars := n }
    exact ⟨k, h⟩

/-- A transition that only touches fields without logical content. -/
theorem quiet_of {s s' : St} (hw : WFdb s.buffer s.hashBits s.names s.clauses)
    (h : s'.clauses = s.clauses ∧ s'.buffer = s.buffer ∧ s'.hashBits = s.hashBits ∧ s'.names = s.names ∧
      s'.units = s.units ∧ s'.unsat = s.unsat ∧ s'.unitConflict = s.unitConflict ∧ s'.nextId = s.nextId ∧
      s'.clauseCount = s.clauseCount ∧ s'.trail = s.trail ∧ s'.assumptions = s.assumptions ∧
      s'.prevId = s.prevId ∧ s'.prevLits = s.prevLits ∧ s'.out = s.out) : Quiet s [] s' := by
  obtain ⟨h1, h2, h3, h4, h5, h6, h7, h8, h9, h10, h11, h12, h13, h14⟩ := h
  exact ⟨⟨by rw [h1, h2, h3, h4]; exact hw, by rw [h1, h2], h5, h6, h7, h8, h9, h10, h11⟩, h12, h13, by
    rw [h14, List.append_nil]⟩

theorem quiet_ensureVar (v : Nat) {s : St} (hw : WFdb s.buffer s.hashBits s.names s.clauses) :
    Quiet s [] (ensureVar v s) := by
  obtain ⟨n, h⟩ := ensureVar_eq v s
  rw [h]; exact quiet_of hw ⟨rfl, rfl, rfl, rfl, rfl, rfl, rfl, rfl, rfl, rfl, rfl, rfl, rfl, rfl⟩

theorem quiet_ensureVars (lits : List Lit) {s : St} (hw : WFdb s.buffer s.hashBits s.names s.clauses) :
    Quiet s [] (ensureVars lits s) := by
  obtain ⟨n, h⟩ := ensureVars_eq lits s
  rw [h]; exact quiet_of hw ⟨rfl, rfl, rfl, rfl, rfl, rfl, rfl, rfl, rfl, rfl, rfl, rfl, rfl, rfl⟩

theorem wp_ensureSamplingVars (lits : List Lit) : ∀ {s : St},
    WFdb s.buffer s.hashBits s.names s.clauses →
    wp (ensureSamplingVars lits) (fun _ s' => Quiet s [] s')
      (fun e s' => e = .checkFailed s.step .notSampling ∧ Quiet s [] s') s := by
  induction lits with
  | nil => intro s hw; unfold ensureSamplingVars; rw [wp_pure]; exact Quiet.refl hw
  | cons l ls ih =>
    intro s hw
    unfold ensureSamplingVars ensureSamplingVar
    rw [wp_bind, wp_bind, wp_modify, wp_bind, wp_get]
    have hq := quiet_ensureVar l.var hw
    have hst : (ensureVar l.var s).step = s.step := by
      obtain ⟨n, h⟩ := ensureVar_eq l.var s; rw [h]
    split
    · rw [wp_fail, hst]; exact ⟨rfl, hq⟩
    · rw [wp_pure]
      refine wp_mono (ih hq.wf) ?_ ?_
      · intro _ s' h; exact hq.trans h
      · rintro e s' ⟨h1, h2⟩; exact ⟨by rw [h1, hst], hq.trans h2⟩

/-! ### The propagation check -/

theorem findTrue_some {units : Nat → Option UnitClause} {lits : List Lit} {r : Option Nat}
    (h : findTrue units lits = some r) : ∃ l ∈ lits, ∃ u, units l.var = some u ∧ u.value = (!l.isNeg) ∧
      ((∃ id, r = some id ∧ u.id = .global id) ∨ (r = none ∧ ∀ id, u.id ≠ .global id)) := by
  induction lits with
  | nil => simp [findTrue] at h
  | cons l ls ih =>
    unfold findTrue at h
    split at h
    · rename_i id b hv
      obtain ⟨h1, h2⟩ := litValue_true hv
      simp only [Option.some.injEq] at h
      exact ⟨l, by simp, _, h1, by simpa using h2, Or.inl ⟨id, h.symm, rfl⟩⟩
    · rename_i u hid hv
      obtain ⟨h1, h2⟩ := litValue_true hv
      simp only [Option.some.injEq] at h
      refine ⟨l, by simp, _, h1, by simpa using h2, Or.inr ⟨h.symm, ?_⟩⟩
      intro id e
      obtain ⟨ui, uv⟩ := u
      simp only at e
      subst e
      exact hid id uv rfl
    · obtain ⟨m, hm, h1⟩ := ih h
      exact ⟨m, List.mem_cons_of_mem _ hm, h1⟩

theorem findTrue_none {units : Nat → Option UnitClause} {lits : List Lit}
    (h : findTrue units lits = none) : ∀ l ∈ lits, ∀ u, units l.var = some u → u.value = l.isNeg := by
  induction lits with
  | nil => simp
  | cons l ls ih =>
    unfold findTrue at h
    split at h
    · simp at h
    · simp at h
    · rename_i h1 h2
      intro m hm u hu
      rcases List.mem_cons.1 hm with rfl | hm
      · by_contra hne
        have : litValue units m = some (true, u) := by
          unfold litValue; rw [hu]; simp only [Option.map_some, Option.some.injEq, Prod.mk.injEq, and_true]
          revert hne; cases u.value <;> cases m.isNeg <;> simp
        exact h2 _ this
      · exact ih h m hm u hu

/-- Error cases of the check. -/
def CheckErr (s : St) (e : Err) (s' : St) : Prop :=
  (∃ h, e = .checkFailed s.step (.noClauseForHash h)) ∨
  (e = .checkFailed s.step .atFailed ∧ Quiet s [] s')

theorem check_eff (env : Env) {s : St} (hp : Pre s) {lits : List Lit} (hn : ∀ l ∈ lits, l.neg ∉ lits)
    (hashes : List Nat) :
    wp (checkClauseWithHashes env lits hashes)
      (fun _ s' => Quiet s [] s' ∧ ∃ ids, Refuted (HasId s) lits ids ∧ (env.hasProc = true → s'.traceIds = ids))
      (CheckErr s) s := by
  unfold checkClauseWithHashes
  rw [wp_bind, wp_modify]
  -- after the optional rehash
  obtain ⟨s1, hs1, hq1, hst1⟩ : ∃ s1, (if s.rename then rehash env s else s) = s1 ∧ Quiet s [] s1 ∧
      s1.step = s.step := by
    by_cases hr : s.rename = true
    · obtain ⟨m, h1, h2, h3⟩ := rehash_spec env (s := s) hp.wf
      refine ⟨_, rfl, ?_, ?_⟩
      · rw [if_pos hr, h1]
        exact ⟨⟨h2, h3, rfl, rfl, rfl, rfl, rfl, rfl, rfl⟩, rfl, rfl, by simp⟩
      · rw [if_pos hr, h1]
    · exact ⟨s, by rw [if_neg hr], Quiet.refl hp.wf, rfl⟩
  rw [hs1]
  rw [wp_bind, wp_modify, wp_bind, wp_get]
  have hp1 := hq1.toSame.pre hp
  split
  · rename_i ht; exact absurd hp1.trail ht
  · rw [wp_bind, wp_modify]
    have hq2 : Quiet s [] (ensureVars lits { s1 with
        trace := []
        edges := [] }) := by
      refine (hq1.trans (Quiet.trans (quiet_of hq1.wf ?_) (quiet_ensureVars lits ?_)))
      · exact ⟨rfl, rfl, rfl, rfl, rfl, rfl, rfl, rfl, rfl, rfl, rfl, rfl, rfl, rfl⟩
      · exact hq1.wf
    have hst2 : (ensureVars lits { s1 with
        trace := []
        edges := [] }).step = s.step := by
      obtain ⟨n, h⟩ := ensureVars_eq lits { s1 with
        trace := []
        edges := [] }
      rw [h]; exact hst1
    generalize ensureVars lits { s1 with
        trace := []
        edges := [] } = s2 at hq2 hst2
    rw [wp_bind, wp_get]
    have hp2 := hq2.toSame.pre hp
    have hid := hq2.toSame.hasId
    have hU : ∀ v id b, s2.units v = some ⟨.global id, b⟩ → HasId s id [Lit.mk' v b] := by
      intro v id b h
      exact (hid _ _).1 (Or.inr ⟨v, b, h, rfl⟩)
    have hflat : ∀ c ∈ flat s2.clauses, HasId s c.id (c.lits.slice s2.buffer) := by
      intro c hc
      exact (hid _ _).1 (Or.inl ⟨entryOf s2.buffer c, List.mem_map_of_mem hc, rfl, rfl⟩)
    split
    · rename_i id hf
      rw [wp_modify]
      obtain ⟨l, hl, u, hu, hv, h⟩ := findTrue_some hf
      refine ⟨hq2.trans (quiet_of hq2.wf
        ⟨rfl, rfl, rfl, rfl, rfl, rfl, rfl, rfl, rfl, rfl, rfl, rfl, rfl, rfl⟩), [id], ?_, fun _ => rfl⟩
      rcases h with ⟨id', e1, e2⟩ | ⟨e1, -⟩
      · simp only [Option.some.injEq] at e1
        subst e1
        have hu' : s2.units l.var = some ⟨.global id, !l.isNeg⟩ := by
          rw [hu]; obtain ⟨ui, uv⟩ := u; simp only at e2 hv; rw [e2, hv]
        refine ⟨[[l]], List.Forall₂.cons ?_ .nil, ?_⟩
        · have := hU _ _ _ hu'
          rwa [Lit.mk'_var_neg] at this
        · intro m hm
          simp only [List.mem_singleton] at hm
          subst hm
          exact List.mem_map_of_mem hl
      · simp at e1
    · rename_i hf
      exfalso
      obtain ⟨l, hl, u, hu, hv, h⟩ := findTrue_some hf
      rcases h with ⟨id', e1, e2⟩ | ⟨-, h⟩
      · simp at e1
      · obtain ⟨id, e⟩ := hp2.glob _ _ hu
        exact h id e
    · rename_i hf
      have hr := rinv_start (U0 := s2.units) (HC := HasId s) hp2.glob hn
      have hh := prop_inv hU s2.clauses s2.buffer hflat hashes hr
      simp only
      generalize propHashes s2.clauses s2.buffer hashes (assumeFalse lits { units := s2.units }) = pr at hh
      obtain ⟨r, e⟩ := pr
      simp only at hh
      -- the common tail
      have tail : ∀ s3 : St, Quiet s [] { s3 with
            units := s2.units
            trail := [] } → s3.step = s.step → (e = .unsat → env.hasProc = true →
            s3.traceIds = r.trace.map (·.id)) →
          wp (modifySt (fun s => { s with
            units := undo r.trail r.units
            trail := [] }) >>= fun _ => if e = .unsat then pure () else fail .atFailed)
          (fun _ s' => Quiet s [] s' ∧ ∃ ids, Refuted (HasId s) lits ids ∧
            (env.hasProc = true → s'.traceIds = ids)) (CheckErr s) s3 := by
        intro s3 h1 h2 h3
        rw [wp_bind, wp_modify, hh.1]
        split
        · rename_i he
          rw [wp_pure]
          exact ⟨h1, _, hh.2 he, h3 he⟩
        · rw [wp_fail]
          exact Or.inr ⟨by simp only [h2], h1⟩
      have hq3 : ∀ t ed ti, Quiet s [] { s2 with
          trace := t
          edges := ed
          traceIds := ti
          units := s2.units
          trail := [] } := by
        intro t ed ti
        refine hq2.trans (quiet_of hq2.wf ⟨rfl, rfl, rfl, rfl, rfl, rfl, rfl, rfl, rfl, ?_, rfl, rfl, rfl, rfl⟩)
        exact hp2.trail.symm
      cases e with
      | noClause h =>
        simp only
        rw [wp_bind, wp_modify, wp_fail]
        exact Or.inl ⟨h, by simp only [hst2]⟩
      | unsat =>
        simp only
        split
        · rw [wp_bind, wp_modify]
          exact tail _ (hq3 _ _ _) hst2 (fun _ _ => rfl)
        · rename_i hc
          rw [wp_bind, wp_modify]
          refine tail _ (hq3 _ _ _) hst2 (fun _ h => ?_)
          exact absurd ⟨trivial, h⟩ hc
      | notUnsat =>
        simp only
        split
        · rename_i hc; simp at hc
        · rw [wp_bind, wp_modify]
          exact tail _ (hq3 _ _ _) hst2 (fun h => by simp at h)

/-! ### Storing -/

/-- Cases of `store_clause`. -/
inductive StoreKind (lits : List Lit) (red : Bool) (s s' : St) : Nat → StoreResult → Prop
  | empty (hl : lits = []) (hp : ents s'.buffer s'.clauses = ents s.buffer s.clauses)
      (hu : s'.units = s.units) (hs : s'.unsat = true) (hc : s'.unitConflict = s.unitConflict)
      (hi : s'.nextId = s.nextId + 1) (hcc : s'.clauseCount = s.clauseCount) :
      StoreKind lits red s s' s.nextId .new
  | unitDup (l : Lit) (id : Nat) (hl : lits = [l])
      (hv : s.units l.var = some ⟨.global id, !l.isNeg⟩)
      (hp : ents s'.buffer s'.clauses = ents s.buffer s.clauses)
      (hu : s'.units = s.units) (hs : s'.unsat = s.unsat) (hc : s'.unitConflict = s.unitConflict)
      (hi : s'.nextId = s.nextId) (hcc : s'.clauseCount = s.clauseCount) :
      StoreKind lits red s s' id .duplicate
  | unitConflict (l : Lit) (cid : Nat) (hl : lits = [l])
      (hv : s.units l.var = some ⟨.global cid, l.isNeg⟩)
      (hp : ents s'.buffer s'.clauses = ents s.buffer s.clauses)
      (hu : s'.units = s.units) (hs : s'.unsat = true)
      (hc : s'.unitConflict = some (cid, s.nextId))
      (hi : s'.nextId = s.nextId + 1) (hcc : s'.clauseCount = s.clauseCount) :
      StoreKind lits red s s' s.nextId .new
  | unitNew (l : Lit) (hl : lits = [l]) (hv : s.units l.var = none)
      (hp : ents s'.buffer s'.clauses = ents s.buffer s.clauses)
      (hu : s'.units = upd s.units l.var (some ⟨.global s.nextId, !l.isNeg⟩)) (hs : s'.unsat = s.unsat)
      (hc : s'.unitConflict = s.unitConflict) (hi : s'.nextId = s.nextId + 1)
      (hcc : s'.clauseCount = s.clauseCount) :
      StoreKind lits red s s' s.nextId .new
  | long (id : Nat) (res : StoreResult) (hl : LitsOk lits)
      (he : StoreEff red lits s.nextId (ents s.buffer s.clauses) (ents s'.buffer s'.clauses) id res)
      (hu : s'.units = s.units) (hs : s'.unsat = s.unsat) (hc : s'.unitConflict = s.unitConflict)
      (hi : s'.nextId = if res = .new then s.nextId + 1 else s.nextId)
      (hcc : s'.clauseCount = if res = .new then countUp lits s.clauseCount else s.clauseCount) :
      StoreKind lits red s s' id res

structure Stored (lits : List Lit) (red : Bool) (s s' : St) (id : Nat) (res : StoreResult) : Prop where
  wf : WFdb s'.buffer s'.hashBits s'.names s'.clauses
  trail : s'.trail = s.trail
  assumptions : s'.assumptions = s.assumptions
  prevId : s'.prevId = s.prevId
  prevLits : s'.prevLits = s.prevLits
  out : s'.out = s.out
  traceIds : s'.traceIds = s.traceIds
  kind : StoreKind lits red s s' id res

theorem storeUnit_eff {s : St} (hp : Pre s) (l : Lit) (red : Bool) :
    wp (storeUnitClause l) (fun r s' => Stored [l] red s s' r.1 r.2) (fun _ _ => False) s := by
  unfold storeUnitClause
  rw [wp_bind, wp_get]
  split
  · rename_i id b hv
    rw [wp_pure]
    obtain ⟨h1, h2⟩ := litValue_true hv
    refine ⟨hp.wf, rfl, rfl, rfl, rfl, rfl, rfl, .unitDup l id rfl ?_ rfl rfl rfl rfl rfl rfl⟩
    simp only at h2
    rw [h1, h2]; simp
  · rename_i id b hv
    rw [wp_bind, wp_modify, wp_pure]
    obtain ⟨h1, h2⟩ := litValue_true hv
    refine ⟨hp.wf, rfl, rfl, rfl, rfl, rfl, rfl, .unitConflict l id rfl ?_ rfl rfl rfl rfl rfl rfl⟩
    simp only at h2
    rw [h1, h2]; simp
  · rename_i hv h1 h2
    exfalso
    rename_i x
    obtain ⟨b, ui, uv⟩ := x
    obtain ⟨g1, g2⟩ := litValue_true h2
    obtain ⟨id, e⟩ := hp.glob _ _ g1
    simp only at e
    subst e
    cases b
    · exact h1 id uv rfl
    · exact hv id uv rfl
  · rename_i hv
    rw [wp_bind, wp_modify, wp_pure]
    exact ⟨hp.wf, rfl, rfl, rfl, rfl, rfl, rfl, .unitNew l rfl (litValue_none hv) rfl rfl rfl rfl rfl rfl⟩

theorem store_eff {s : St} (hp : Pre s) (lits : List Lit) (hs : SSorted lits)
    (hn : ∀ l ∈ lits, l.neg ∉ lits) (red : Bool) :
    wp (storeClause lits red) (fun r s' => Stored lits red s s' r.1 r.2) (fun _ _ => False) s := by
  unfold storeClause
  rw [wp_bind, wp_modify]
  obtain ⟨n, h⟩ := ensureVars_eq lits s
  rw [h]
  have hp' : Pre { s with nvars := n } := ⟨hp.wf, hp.glob, hp.trail⟩
  split
  · rw [wp_bind, wp_get, wp_bind, wp_modify, wp_pure]
    exact ⟨hp.wf, rfl, rfl, rfl, rfl, rfl, rfl, .empty rfl rfl rfl rfl rfl rfl rfl⟩
  · rename_i l
    refine wp_mono (storeUnit_eff hp' l red) ?_ (fun _ _ h => h)
    rintro ⟨rid, rr⟩ s' h
    refine ⟨h.wf, h.trail, h.assumptions, h.prevId, h.prevLits, h.out, h.traceIds, ?_⟩
    have hk := h.kind
    simp only at hk ⊢
    cases hk with
    | empty hl => simp at hl
    | unitDup l id hl hv hp hu hs hc hi hcc => exact .unitDup l _ hl hv hp hu hs hc hi hcc
    | unitConflict l id hl hv hp hu hs hc hi hcc => exact .unitConflict l id hl hv hp hu hs hc hi hcc
    | unitNew l hl hv hp hu hs hc hi hcc => exact .unitNew l hl hv hp hu hs hc hi hcc
    | long id res hl => have := hl.len; simp at this
  · rename_i h0 h1
    have hl : LitsOk lits := ⟨hs, by
      match lits, h0, h1 with
      | [], h0, _ => exact absurd rfl h0
      | [l], _, h1 => exact absurd rfl (h1 l)
      | _ :: _ :: _, _, _ => simp, hn⟩
    obtain ⟨id, res, m, x, k, cc, e1, e2, e3, e4, e5⟩ := storeLong_spec (s := { s with nvars := n }) hp.wf hl red
    unfold wp
    rw [e1]
    simp only
    refine ⟨e2, rfl, rfl, rfl, rfl, rfl, rfl, .long id res hl e3 rfl rfl rfl ?_ ?_⟩
    · by_cases hr : res = .new
      · rw [if_pos hr]; exact (e4 hr).1
      · rw [if_neg hr]; exact (e5 hr).1
    · by_cases hr : res = .new
      · rw [if_pos hr]; exact (e4 hr).2
      · rw [if_neg hr]; exact (e5 hr).2.1

/-! ### Whole operations -/

/-- Only `nextId` moves on. -/
structure Bump (s s' : St) : Prop where
  same : Same s { s' with nextId := s.nextId }
  nextId : s'.nextId = s.nextId + 1
  prevId : s'.prevId = s.prevId
  prevLits : s'.prevLits = s.prevLits
  out : s'.out = s.out

/-- Accepted `add_clause`. -/
inductive AddEff (c : List Lit) (s s' : St) : Prop
  | skipped (hu : s.unsat = true) (h : s' = s)
  | taut (s1 : St) (hu : s.unsat = false) (ht : (copyCanonical c).2 = true)
      (hq : Quiet s [.tautologicalClause s.nextId (copyCanonical c).1] s1) (hb : Bump s1 s')
  | new (s0 s1 : St) (id : Nat) (hu : s.unsat = false) (ht : (copyCanonical c).2 = false)
      (hq : Quiet s [] s0) (hst : Stored (copyCanonical c).1 false s0 s1 id .new)
      (hq1 : Quiet s1 [.addClause id (copyCanonical c).1] s')
  | irred (s0 s1 s2 : St) (id : Nat) (hu : s.unsat = false) (ht : (copyCanonical c).2 = false)
      (hq : Quiet s [] s0) (hst : Stored (copyCanonical c).1 false s0 s1 id .newlyIrredundant)
      (hq1 : Quiet s1 [.makeIrredundant id (copyCanonical c).1,
        .duplicatedClause s1.nextId id (copyCanonical c).1] s2) (hb : Bump s2 s')
  | dup (s0 s1 s2 : St) (id : Nat) (hu : s.unsat = false) (ht : (copyCanonical c).2 = false)
      (hq : Quiet s [] s0) (hst : Stored (copyCanonical c).1 false s0 s1 id .duplicate)
      (hq1 : Quiet s1 [.duplicatedClause s1.nextId id (copyCanonical c).1] s2) (hb : Bump s2 s')

/-- A check failure that leaves clauses and assignment alone. -/
def CleanFail (s : St) (e : Err) (s' : St) : Prop :=
  (∃ w, e = .checkFailed s.step w ∧ ∀ h, w ≠ .noClauseForHash h) ∧ Same s s' ∧ s'.out = s.out

/-- Error outcomes of a step: a processor error or panic, a failed lookup of a hash, or a clean failure. -/
def StepErr (s : St) (e : Err) (s' : St) : Prop :=
  External e ∨ (∃ h, e = .checkFailed s.step (.noClauseForHash h)) ∨ CleanFail s e s'

theorem canonical_notaut {c : List Lit} (h : (copyCanonical c).2 = false) :
    ∀ l ∈ (copyCanonical c).1, l.neg ∉ (copyCanonical c).1 := by
  intro l hl hl'
  have : (copyCanonical c).2 = true := (canonical_taut c).2 ⟨l, mem_canonical.1 hl, mem_canonical.1 hl'⟩
  rw [h] at this; simp at this

theorem bump_intro {s : St} (hw : WFdb s.buffer s.hashBits s.names s.clauses) :
    Bump s { s with nextId := s.nextId + 1 } :=
  ⟨Same.refl hw, rfl, rfl, rfl, rfl⟩

theorem addClause_eff (env : Env) {s : St} (hp : Pre s) (c : List Lit) :
    wp (addClause env c) (fun _ s' => AddEff c s s') (StepErr s) s := by
  unfold addClause
  rw [wp_bind, wp_get]
  have hext : ∀ e s', External e → StepErr s e s' := fun e s' h => Or.inl h
  split
  · rename_i hu; rw [wp_pure]; exact .skipped hu rfl
  · rename_i hu
    have hu : s.unsat = false := by simpa using hu
    have h1 := canonical_ssorted c
    have h2 : (copyCanonical c).2 = false → ∀ l ∈ (copyCanonical c).1, l.neg ∉ (copyCanonical c).1 :=
      canonical_notaut
    have hadd2 := fun s' s0 s1 id => AddEff.new (c := c) (s := s) (s' := s') s0 s1 id hu
    have hadd3 := fun s' s0 s1 s2 id => AddEff.irred (c := c) (s := s) (s' := s') s0 s1 s2 id hu
    have hadd4 := fun s' s0 s1 s2 id => AddEff.dup (c := c) (s := s) (s' := s') s0 s1 s2 id hu
    have hadd1 := fun s' s1 => AddEff.taut (c := c) (s := s) (s' := s') s1 hu
    generalize copyCanonical c = cc at h1 h2 hadd1 hadd2 hadd3 hadd4
    obtain ⟨tmp, taut⟩ := cc
    simp only at h1 h2 hadd1 hadd2 hadd3 hadd4 ⊢
    split
    · rename_i ht
      rw [wp_bind]
      refine wp_emit_quiet hp.wf ?_ hext
      intro s' hq _
      rw [wp_modify]
      exact hadd1 _ s' ht hq (bump_intro hq.wf)
    · rename_i ht
      have ht : taut = false := by simpa using ht
      rw [wp_bind]
      refine wp_mono (wp_ensureSamplingVars tmp hp.wf) ?_ ?_
      · intro _ s0 hq0
        rw [wp_bind]
        refine wp_mono (store_eff (hq0.toSame.pre hp) tmp h1 (h2 ht) false) ?_ (fun _ _ h => h.elim)
        rintro ⟨id, res⟩ s1 hst
        simp only at hst ⊢
        cases res with
        | new =>
          simp only
          refine wp_emit_quiet hst.wf ?_ hext
          intro s' hq _
          exact hadd2 _ s0 s1 id ht hq0 hst hq
        | newlyIrredundant =>
          simp only
          rw [wp_bind]
          refine wp_emit_quiet hst.wf ?_ hext
          intro s2 hq2 _
          rw [wp_bind, wp_get, wp_bind]
          refine wp_emit_quiet hq2.wf ?_ hext
          intro s3 hq3 _
          rw [wp_modify]
          refine hadd3 _ s0 s1 s3 id ht hq0 hst ?_ (bump_intro hq3.wf)
          have := hq2.trans hq3
          rw [hq2.nextId] at this
          exact this
        | duplicate =>
          simp only
          rw [wp_bind, wp_get, wp_bind]
          refine wp_emit_quiet hst.wf ?_ hext
          intro s3 hq3 _
          rw [wp_modify]
          exact hadd4 _ s0 s1 s3 id ht hq0 hst hq3 (bump_intro hq3.wf)
      · rintro e s' ⟨he, hq⟩
        exact Or.inr (Or.inr ⟨⟨_, he, by simp⟩, hq.toSame, by rw [hq.out]; simp⟩)

/-- Accepted `at_clause` step. -/
structure AtEff (env : Env) (red : Bool) (c : List Lit) (s s' : St) : Prop where
  ht : (copyCanonical c).2 = false
  run : ∃ s0 s1 s2 id res ids, Quiet s [] s0 ∧ Refuted (HasId s) (copyCanonical c).1 ids ∧
    (env.hasProc = true → s0.traceIds = ids) ∧ Stored (copyCanonical c).1 red s0 s1 id res ∧
    s2 = (if red then s1 else { s1 with
      prevId := some id
      prevLits := (copyCanonical c).1 }) ∧
    Quiet s2 (match res with
      | .new => [.atClause id red (copyCanonical c).1 s0.traceIds]
      | .newlyIrredundant => [.makeIrredundant id (copyCanonical c).1]
      | .duplicate => []) s'

theorem stepErr_of_check {s : St} {e s'} (h : CheckErr s e s') : StepErr s e s' := by
  rcases h with h | ⟨h, hq⟩
  · exact Or.inr (Or.inl h)
  · exact Or.inr (Or.inr ⟨⟨_, h, by simp⟩, hq.toSame, by rw [hq.out]; simp⟩)

theorem at_eff (env : Env) {s : St} (hp : Pre s) (red : Bool) (c : List Lit) (hashes : List Nat) :
    wp (checkAtClause env red c hashes) (fun _ s' => AtEff env red c s s') (StepErr s) s := by
  unfold checkAtClause
  have h1 := canonical_ssorted c
  have h2 : (copyCanonical c).2 = false → ∀ l ∈ (copyCanonical c).1, l.neg ∉ (copyCanonical c).1 :=
    canonical_notaut
  have hadd := fun s' => AtEff.mk (env := env) (red := red) (c := c) (s := s) (s' := s')
  have hext : ∀ e s', External e → StepErr s e s' := fun e s' h => Or.inl h
  generalize copyCanonical c = cc at h1 h2 hadd
  obtain ⟨tmp, taut⟩ := cc
  simp only at h1 h2 hadd ⊢
  split
  · rw [wp_fail]
    exact Or.inr (Or.inr ⟨⟨_, rfl, by simp⟩, Same.refl hp.wf, rfl⟩)
  · rename_i ht
    have ht : taut = false := by simpa using ht
    rw [wp_bind]
    refine wp_mono (check_eff env hp (h2 ht) hashes) ?_ (fun e s' h => stepErr_of_check h)
    rintro _ s0 ⟨hq0, ids, hids, htr⟩
    rw [wp_bind]
    refine wp_mono (store_eff (hq0.toSame.pre hp) tmp h1 (h2 ht) red) ?_ (fun _ _ h => h.elim)
    rintro ⟨id, res⟩ s1 hst
    simp only at hst ⊢
    have fin : ∀ s2, s2 = (if red then s1 else { s1 with
        prevId := some id
        prevLits := tmp }) → wp (match res with
        | .new => do
          let s ← getSt
          emit env (.atClause id red tmp s.traceIds)
        | .newlyIrredundant => emit env (.makeIrredundant id tmp)
        | .duplicate => pure ()) (fun _ s' => AtEff env red c s s') (StepErr s) s2 := by
      intro s2 hs2
      have hw2 : WFdb s2.buffer s2.hashBits s2.names s2.clauses := by
        rw [hs2]; split <;> exact hst.wf
      have ht2 : s2.traceIds = s0.traceIds := by
        rw [← hst.traceIds, hs2]; split <;> rfl
      cases res with
      | new =>
        simp only
        rw [wp_bind, wp_get]
        refine wp_emit_quiet hw2 ?_ hext
        intro s' hq _
        rw [ht2] at hq
        exact hadd _ ht ⟨s0, s1, s2, id, _, ids, hq0, hids, htr, hst, hs2, hq⟩
      | newlyIrredundant =>
        simp only
        refine wp_emit_quiet hw2 ?_ hext
        intro s' hq _
        exact hadd _ ht ⟨s0, s1, s2, id, _, ids, hq0, hids, htr, hst, hs2, hq⟩
      | duplicate =>
        simp only
        rw [wp_pure]
        exact hadd _ ht ⟨s0, s1, s2, id, _, ids, hq0, hids, htr, hst, hs2, Quiet.refl hw2⟩
    cases red
    · simp only [Bool.not_false, if_true]
      rw [wp_bind, wp_modify]
      exact fin _ (by simp)
    · simp only [Bool.not_true, Bool.false_eq_true, if_false]
      exact fin _ (by simp)

/-- Accepted `unit_clauses` step: a sequence of derived units. -/
inductive UnitsEff (env : Env) : List Lit → St → St → Prop
  | nil (s : St) (hw : WFdb s.buffer s.hashBits s.names s.clauses) : UnitsEff env [] s s
  | cons (l : Lit) (ls : List Lit) (s s0 s1 s2 s' : St) (id : Nat) (res : StoreResult) (ids : List Nat)
      (hq : Quiet s [] s0) (hr : Refuted (HasId s) [l] ids) (htr : env.hasProc = true → s0.traceIds = ids)
      (hst : Stored [l] false s0 s1 id res)
      (hq2 : Quiet s1 (match res with | .new => [.atClause id false [l] s0.traceIds] | _ => []) s2)
      (tail : UnitsEff env ls s2 s') : UnitsEff env (l :: ls) s s'

theorem pre_stored {lits red s s' id res} (hp : Pre s) (h : Stored lits red s s' id res) : Pre s' := by
  refine ⟨h.wf, ?_, by rw [h.trail]; exact hp.trail⟩
  intro v u hu
  cases h.kind with
  | empty hl hp' hu' => rw [hu'] at hu; exact hp.glob v u hu
  | unitDup l id hl hv hp' hu' => rw [hu'] at hu; exact hp.glob v u hu
  | unitConflict l id hl hv hp' hu' => rw [hu'] at hu; exact hp.glob v u hu
  | unitNew l hl hv hp' hu' =>
    rw [hu'] at hu
    unfold upd at hu
    split at hu
    · simp only [Option.some.injEq] at hu; subst hu; exact ⟨_, rfl⟩
    · exact hp.glob v u hu
  | long id res hl he hu' => rw [hu'] at hu; exact hp.glob v u hu

theorem single_notaut (l : Lit) : ∀ m ∈ [l], m.neg ∉ [l] := by
  intro m hm hm'
  simp only [List.mem_singleton] at hm hm'
  subst hm
  exact Lit.neg_ne m hm'

theorem units_eff (env : Env) (us : List (Lit × Nat)) : ∀ {s : St}, Pre s →
    wp (checkUnitClauses env us)
      (fun _ s' => UnitsEff env (us.map Prod.fst) s s')
      (fun e s' => ∃ ls sm, UnitsEff env ls s sm ∧ Pre sm ∧ (External e ∨
        ∃ w, e = .checkFailed sm.step w ∧ StepErr sm e s')) s := by
  induction us with
  | nil => intro s hp; unfold checkUnitClauses; rw [wp_pure]; exact .nil s hp.wf
  | cons u us ih =>
    intro s hp
    obtain ⟨l, hash⟩ := u
    unfold checkUnitClauses
    rw [wp_bind, wp_modify, wp_bind]
    have hq0 := quiet_ensureVar l.var hp.wf
    have hst0 : (ensureVar l.var s).step = s.step := by
      obtain ⟨n, h⟩ := ensureVar_eq l.var s; rw [h]
    generalize ensureVar l.var s = s0 at hq0 hst0
    have hp0 := hq0.toSame.pre hp
    have hHe : HasId s0 = HasId s := by
      funext i c; exact propext (hq0.toSame.hasId i c)
    refine wp_mono (check_eff env hp0 (single_notaut l) [hash]) ?_ ?_
    · rintro _ s1 ⟨hq1, ids, hids, htr⟩
      rw [hHe] at hids
      have hp1 := hq1.toSame.pre hp0
      rw [wp_bind]
      refine wp_mono (storeUnit_eff hp1 l false) ?_ (fun _ _ h => h.elim)
      rintro ⟨id, res⟩ s2 hst
      simp only at hst ⊢
      have hp2 := pre_stored hp1 hst
      cases res with
      | new =>
        simp only
        rw [wp_bind, wp_get, wp_bind]
        refine wp_emit_quiet hst.wf ?_ ?_
        · intro s3 hq3 _
          have hp3 := hq3.toSame.pre hp2
          rw [hst.traceIds] at hq3
          refine wp_mono (ih hp3) ?_ ?_
          · intro _ s' h
            exact .cons l _ s s1 s2 s3 s' id _ ids (hq0.trans hq1) hids htr hst hq3 h
          · rintro e s' ⟨ls, sm, h1, h2, h3⟩
            exact ⟨l :: ls, sm, .cons l _ s s1 s2 s3 sm id _ ids (hq0.trans hq1) hids htr hst hq3 h1, h2, h3⟩
        · intro e s' h
          exact ⟨[], s, .nil s hp.wf, hp, Or.inl h⟩
      | duplicate =>
        simp only
        have hq3 := Quiet.refl hst.wf
        refine wp_mono (ih hp2) ?_ ?_
        · intro _ s' h
          exact .cons l _ s s1 s2 s2 s' id _ ids (hq0.trans hq1) hids htr hst hq3 h
        · rintro e s' ⟨ls, sm, h1, h2, h3⟩
          exact ⟨l :: ls, sm, .cons l _ s s1 s2 s2 sm id _ ids (hq0.trans hq1) hids htr hst hq3 h1, h2, h3⟩
      | newlyIrredundant =>
        simp only
        rw [wp_bind, wp_panic]
        exact ⟨[], s, .nil s hp.wf, hp, Or.inl (Or.inr rfl)⟩
    · intro e s' h
      refine ⟨[], s, .nil s hp.wf, hp, Or.inr ?_⟩
      rcases h with ⟨k, h⟩ | ⟨h, hq⟩
      · exact ⟨_, by rw [h, hst0], Or.inr (Or.inl ⟨k, by rw [h, hst0]⟩)⟩
      · refine ⟨_, by rw [h, hst0], Or.inr (Or.inr ⟨⟨_, by rw [h, hst0], by simp⟩, (hq0.trans hq).toSame, ?_⟩)⟩
        rw [(hq0.trans hq).out]; simp

/-- Accepted `delete_clause` step. -/
structure DelStepEff (c : List Lit) (proof : DeleteProof) (s s' : St) : Prop where
  ht : (copyCanonical c).2 = false
  len : 2 ≤ (copyCanonical c).1.length
  just : match proof with
    | .redundant => True
    | .satisfied => ∃ l ∈ (copyCanonical c).1, ∃ id, s.units l.var = some ⟨.global id, !l.isNeg⟩
    | .simplified => s.prevId.isSome ∧ isSubset s.prevLits (copyCanonical c).1 true = true
  run : ∃ id r s1 o, DelEff (decide (proof = .redundant)) (copyCanonical c).1
      (ents s.buffer s.clauses) (ents s1.buffer s1.clauses) id r ∧
    WFdb s1.buffer s1.hashBits s1.names s1.clauses ∧
    s1.units = s.units ∧ s1.unsat = s.unsat ∧ s1.unitConflict = s.unitConflict ∧ s1.nextId = s.nextId ∧
    s1.trail = s.trail ∧ s1.assumptions = s.assumptions ∧ s1.out = s.out ∧
    s1.prevId = none ∧ s1.prevLits = [] ∧
    s1.clauseCount = (if r = .removed then countDown (copyCanonical c).1 s.clauseCount else s.clauseCount) ∧
    (match proof, r with
      | .redundant, .removed => o = [.deleteClause id (copyCanonical c).1]
      | .redundant, .unchanged => o = []
      | .redundant, .newlyRedundant => False
      | _, .unchanged => o = []
      | .satisfied, r => ∃ l ∈ (copyCanonical c).1, ∃ sid, s.units l.var = some ⟨.global sid, !l.isNeg⟩ ∧
          o = [.deleteAtClause id (decide (r = .newlyRedundant)) (copyCanonical c).1 [sid]]
      | .simplified, r => ∃ sid, s.prevId = some sid ∧
          o = [.deleteAtClause id (decide (r = .newlyRedundant)) (copyCanonical c).1 [sid]]) ∧
    Quiet s1 o s'

theorem findSatisfied_some {s : St} {lits : List Lit} {id : Nat} (h : findSatisfied s lits = some (some id)) :
    ∃ l ∈ lits, s.units l.var = some ⟨.global id, !l.isNeg⟩ := by
  induction lits with
  | nil => simp [findSatisfied] at h
  | cons l ls ih =>
    unfold findSatisfied at h
    split at h
    · simp at h
    · split at h
      · rename_i id' b hv
        obtain ⟨h1, h2⟩ := litValue_true hv
        simp only [Option.some.injEq] at h
        subst h
        simp only at h2
        exact ⟨l, by simp, by rw [h1, h2]; simp⟩
      · obtain ⟨m, hm, h⟩ := ih h
        exact ⟨m, List.mem_cons_of_mem _ hm, h⟩

/-- What a justification gives. -/
def Just (tmp : List Lit) (proof : DeleteProof) (s : St) (r : Option Nat) : Prop :=
  match proof with
  | .redundant => r = none
  | .satisfied => ∃ l ∈ tmp, ∃ id, s.units l.var = some ⟨.global id, !l.isNeg⟩ ∧ r = some id
  | .simplified => s.prevId.isSome ∧ isSubset s.prevLits tmp true = true ∧ r = s.prevId

theorem justify_eff {s : St} (hw : WFdb s.buffer s.hashBits s.names s.clauses) (tmp : List Lit)
    (proof : DeleteProof) :
    wp (justifyDelete tmp proof) (fun r s' => s' = s ∧ Just tmp proof s r) (StepErr s) s := by
  unfold justifyDelete
  rw [wp_bind, wp_get]
  cases proof with
  | redundant => exact ⟨rfl, rfl⟩
  | satisfied =>
    simp only
    split
    · rw [wp_panic]; exact Or.inl (Or.inr rfl)
    · rw [wp_fail]; exact Or.inr (Or.inr ⟨⟨_, rfl, by simp⟩, Same.refl hw, rfl⟩)
    · rename_i id h
      rw [wp_pure]
      obtain ⟨l, hl, h⟩ := findSatisfied_some h
      exact ⟨rfl, l, hl, id, h, rfl⟩
  | simplified =>
    simp only
    split
    · rw [wp_fail]; exact Or.inr (Or.inr ⟨⟨_, rfl, by simp⟩, Same.refl hw, rfl⟩)
    · rename_i h
      rw [wp_pure]
      refine ⟨rfl, ?_, ?_, rfl⟩
      · cases hp : s.prevId with
        | none => simp [hp] at h
        | some _ => rfl
      · by_contra hc
        exact h (Or.inr (by simpa using hc))

theorem delete_eff (env : Env) {s : St} (hp : Pre s) (c : List Lit) (proof : DeleteProof) :
    wp (checkDeleteClause env c proof) (fun _ s' => DelStepEff c proof s s') (StepErr s) s := by
  unfold checkDeleteClause
  have hadd := fun s' => DelStepEff.mk (c := c) (proof := proof) (s := s) (s' := s')
  have hext : ∀ e s', External e → StepErr s e s' := fun e s' h => Or.inl h
  generalize copyCanonical c = cc at hadd
  obtain ⟨tmp, taut⟩ := cc
  simp only at hadd ⊢
  split
  · rw [wp_fail]
    exact Or.inr (Or.inr ⟨⟨_, rfl, by simp⟩, Same.refl hp.wf, rfl⟩)
  · rename_i ht
    have ht : taut = false := by simpa using ht
    rw [wp_bind]
    refine wp_mono (justify_eff hp.wf tmp proof) ?_ (fun _ _ h => h)
    rintro r s' ⟨rfl, hj⟩
    rw [wp_bind, wp_modify, wp_bind]
    have hspec := deleteClause_spec env (s := { s' with
      prevId := none
      prevLits := [] }) hp.wf tmp (decide (proof = .redundant))
    have herr : ∀ w m, (∀ h, w ≠ Why.noClauseForHash h) → WFdb s'.buffer s'.hashBits s'.names m →
        (ents s'.buffer m).Perm (ents s'.buffer s'.clauses) →
        StepErr s' (.checkFailed s'.step w) { s' with
          prevId := none
          prevLits := []
          clauses := m } := by
      intro w m hw' h1 h2
      exact Or.inr (Or.inr ⟨⟨w, rfl, hw'⟩, ⟨h1, h2, rfl, rfl, rfl, rfl, rfl, rfl, rfl⟩, rfl⟩)
    rcases hspec with ⟨-, h⟩ | ⟨hlen, ⟨m, h, -, h1, h2⟩ | ⟨m, h, -, h1, h2⟩ | ⟨id, dr, m, b, g, cc, h, h1, h2, h3⟩⟩
    · unfold wp; rw [h]
      exact herr .deleteUnit s'.clauses (by simp) hp.wf (List.Perm.refl _)
    · unfold wp; rw [h]; exact herr .deleteUnknown m (by simp) h1 h2
    · unfold wp; rw [h]
      refine herr _ m ?_ h1 h2
      intro k; split <;> simp
    · unfold wp; rw [h]
      simp only at h1 h2 h3 ⊢
      have fin : ∀ s2 o, (match proof, dr with
          | .redundant, .removed => o = [.deleteClause id tmp]
          | .redundant, .unchanged => o = []
          | .redundant, .newlyRedundant => False
          | _, .unchanged => o = []
          | .satisfied, r => ∃ l ∈ tmp, ∃ sid, s'.units l.var = some ⟨.global sid, !l.isNeg⟩ ∧
              o = [.deleteAtClause id (decide (r = .newlyRedundant)) tmp [sid]]
          | .simplified, r => ∃ sid, s'.prevId = some sid ∧
              o = [.deleteAtClause id (decide (r = .newlyRedundant)) tmp [sid]]) →
          Quiet { s' with
            prevId := none
            prevLits := []
            clauses := m
            buffer := b
            garbage := g
            clauseCount := cc } o s2 → DelStepEff c proof s' s2 := by
        intro s2 o ho hq
        refine hadd s2 ht hlen ?_ ⟨id, dr, { s' with
            prevId := none
            prevLits := []
            clauses := m
            buffer := b
            garbage := g
            clauseCount := cc }, o, h2, h1, rfl, rfl, rfl, rfl, rfl, rfl, rfl, rfl, rfl, h3, ho, hq⟩
        cases proof with
        | redundant => trivial
        | satisfied => obtain ⟨l, hl, id, h, _⟩ := hj; exact ⟨l, hl, id, h⟩
        | simplified => exact ⟨hj.1, hj.2.1⟩
      have hwq : WFdb b s'.hashBits s'.names m := h1
      cases proof with
      | redundant =>
        simp only [decide_true, if_true] at fin ⊢
        cases dr with
        | removed =>
          refine wp_emit_quiet (Q := fun _ s' => _) hwq ?_ hext
          intro s2 hq _
          exact fin s2 _ rfl hq
        | unchanged => exact fin _ _ rfl (Quiet.refl hwq)
        | newlyRedundant => exact Or.inl (Or.inr rfl)
      | satisfied =>
        simp only [reduceCtorEq, decide_false, Bool.false_eq_true, if_false] at fin ⊢
        obtain ⟨l, hl, sid, hu, rfl⟩ := hj
        cases dr with
        | removed =>
          refine wp_emit_quiet (Q := fun _ s' => _) hwq ?_ hext
          intro s2 hq _
          exact fin s2 _ ⟨l, hl, sid, hu, rfl⟩ hq
        | unchanged => exact fin _ _ rfl (Quiet.refl hwq)
        | newlyRedundant =>
          refine wp_emit_quiet (Q := fun _ s' => _) hwq ?_ hext
          intro s2 hq _
          exact fin s2 _ ⟨l, hl, sid, hu, rfl⟩ hq
      | simplified =>
        simp only [reduceCtorEq, decide_false, Bool.false_eq_true, if_false] at fin ⊢
        obtain ⟨hsome, hsub, rfl⟩ := hj
        obtain ⟨sid, hsid⟩ := Option.isSome_iff_exists.1 hsome
        rw [hsid] at fin ⊢
        cases dr with
        | removed =>
          refine wp_emit_quiet (Q := fun _ s' => _) hwq ?_ hext
          intro s2 hq _
          exact fin s2 _ ⟨sid, rfl, rfl⟩ hq
        | unchanged => exact fin _ _ rfl (Quiet.refl hwq)
        | newlyRedundant =>
          refine wp_emit_quiet (Q := fun _ s' => _) hwq ?_ hext
          intro s2 hq _
          exact fin s2 _ ⟨sid, rfl, rfl⟩ hq

/-- Accepted `delete_var` step. -/
inductive DelVarEff (v : Nat) (s s' : St) : Prop
  | free (hc : s.clauseCount (2 * v) = 0 ∧ s.clauseCount (2 * v + 1) = 0) (hu : s.units v = none)
      (hq : Quiet s [] s')
  | unit (id : Nat) (b : Bool) (s1 : St) (hc : s.clauseCount (2 * v) = 0 ∧ s.clauseCount (2 * v + 1) = 0)
      (hu : s.units v = some ⟨.global id, b⟩)
      (hq : Quiet s [.deleteRatClause id false [Lit.mk' v b] (Lit.mk' v b)] s1)
      (hq' : Quiet { s1 with units := upd s1.units v none } [] s')

theorem delVar_eff (env : Env) {s : St} (hp : Pre s) (v : Nat) :
    wp (checkDeleteVar env v) (fun _ s' => DelVarEff v s s') (StepErr s) s := by
  unfold checkDeleteVar
  rw [wp_bind, wp_modify, wp_bind, wp_get]
  have hq0 := quiet_ensureVar v hp.wf
  have hst0 : (ensureVar v s).step = s.step := by
    obtain ⟨n, h⟩ := ensureVar_eq v s; rw [h]
  generalize ensureVar v s = s0 at hq0 hst0
  have hext : ∀ e s', External e → StepErr s e s' := fun e s' h => Or.inl h
  have hfail : ∀ w, (∀ h, w ≠ Why.noClauseForHash h) → StepErr s (.checkFailed s0.step w) s0 := by
    intro w hw
    exact Or.inr (Or.inr ⟨⟨w, by rw [hst0], hw⟩, hq0.toSame, by rw [hq0.out]; simp⟩)
  split
  · rw [wp_fail]; exact hfail _ (by simp)
  · split
    · rw [wp_fail]; exact hfail _ (by simp)
    · rename_i hc
      have hc' : s.clauseCount (2 * v) = 0 ∧ s.clauseCount (2 * v + 1) = 0 := by
        rw [← hq0.count]; omega
      split
      · rename_i id b hu
        rw [wp_bind]
        refine wp_emit_quiet hq0.wf ?_ hext
        intro s1 hq1 _
        rw [wp_bind, wp_modify, wp_modify]
        refine .unit id b s1 hc' (by rw [← hq0.units]; exact hu) (hq0.trans hq1) ?_
        exact quiet_of hq1.wf ⟨rfl, rfl, rfl, rfl, rfl, rfl, rfl, rfl, rfl, rfl, rfl, rfl, rfl, rfl⟩
      · rw [wp_bind, wp_panic]; exact hext _ _ (Or.inr rfl)
      · rename_i hu
        rw [wp_modify]
        refine .free hc' (by rw [← hq0.units]; exact hu) (hq0.trans (quiet_of hq0.wf ?_))
        exact ⟨rfl, rfl, rfl, rfl, rfl, rfl, rfl, rfl, rfl, rfl, rfl, rfl, rfl, rfl⟩

theorem cleanFail_of_quiet {s s' : St} (h : Quiet s [] s') {w : Why} (hw : ∀ h, w ≠ .noClauseForHash h)
    (hst : s'.step = s.step) : StepErr s (.checkFailed s'.step w) s' :=
  Or.inr (Or.inr ⟨⟨w, by rw [hst], hw⟩, h.toSame, by rw [h.out]; simp⟩)

theorem sampling_eff (env : Env) {s : St} (hp : Pre s) (v : Nat) (b : Bool) :
    wp (checkChangeSamplingMode env v b)
      (fun _ s' => ∃ o, Quiet s o s' ∧ (o = [] ∨ ∃ v u, o = [.userVar v u])) (StepErr s) s := by
  unfold checkChangeSamplingMode
  rw [wp_bind, wp_modify, wp_bind, wp_get]
  have hq0 := quiet_ensureVar v hp.wf
  have hst0 : (ensureVar v s).step = s.step := by
    obtain ⟨n, h⟩ := ensureVar_eq v s; rw [h]
  generalize ensureVar v s = s0 at hq0 hst0
  simp only
  generalize (if b = true then SamplingMode.sample else .witness) = mm
  have hext : ∀ e s', External e → StepErr s e s' := fun e s' h => Or.inl h
  split
  · rw [wp_bind, wp_modify]
    have hq1 : Quiet s [] { s0 with mode := upd s0.mode v mm } :=
      hq0.trans (quiet_of hq0.wf ⟨rfl, rfl, rfl, rfl, rfl, rfl, rfl, rfl, rfl, rfl, rfl, rfl, rfl, rfl⟩)
    split
    · refine wp_emit_quiet hq1.wf ?_ hext
      intro s' hq _
      exact ⟨_, hq1.trans hq, Or.inr ⟨_, _, rfl⟩⟩
    · split
      · rw [wp_fail]; exact cleanFail_of_quiet hq1 (by simp) hst0
      · rw [wp_pure]; exact ⟨_, hq1, Or.inl rfl⟩
  · rw [wp_pure]; exact ⟨_, hq0, Or.inl rfl⟩

theorem addUser_eff (env : Env) {s : St} (hp : Pre s) (g u : Nat) :
    wp (addUserMapping env g u)
      (fun _ s' => ∃ o, Quiet s o s' ∧ (o = [] ∨ ∃ v u, o = [.userVar v u])) (StepErr s) s := by
  unfold addUserMapping
  rw [wp_bind, wp_modify, wp_bind, wp_get]
  have hq0 := quiet_ensureVar g hp.wf
  have hst0 : (ensureVar g s).step = s.step := by
    obtain ⟨n, h⟩ := ensureVar_eq g s; rw [h]
  generalize ensureVar g s = s0 at hq0 hst0
  have hext : ∀ e s', External e → StepErr s e s' := fun e s' h => Or.inl h
  split
  · rw [wp_fail]; exact cleanFail_of_quiet hq0 (by simp) hst0
  · split
    · rw [wp_fail]; exact cleanFail_of_quiet hq0 (by simp) hst0
    · split
      · rw [wp_fail]; exact cleanFail_of_quiet hq0 (by simp) hst0
      · rw [wp_bind, wp_modify]
        have hq1 : Quiet s [] { s0 with
            userVar := upd s0.userVar g (some u)
            usedUser := upd s0.usedUser u true } :=
          hq0.trans (quiet_of hq0.wf ⟨rfl, rfl, rfl, rfl, rfl, rfl, rfl, rfl, rfl, rfl, rfl, rfl, rfl, rfl⟩)
        refine wp_emit_quiet hq1.wf ?_ hext
        intro s' hq _
        exact ⟨_, hq1.trans hq, Or.inr ⟨_, _, rfl⟩⟩

theorem removeUser_eff (env : Env) {s : St} (hp : Pre s) (g : Nat) :
    wp (removeUserMapping env g)
      (fun _ s' => ∃ o, Quiet s o s' ∧ (o = [] ∨ ∃ v u, o = [.userVar v u])) (StepErr s) s := by
  unfold removeUserMapping
  rw [wp_bind, wp_modify, wp_bind, wp_get]
  have hq0 := quiet_ensureVar g hp.wf
  have hst0 : (ensureVar g s).step = s.step := by
    obtain ⟨n, h⟩ := ensureVar_eq g s; rw [h]
  generalize ensureVar g s = s0 at hq0 hst0
  have hext : ∀ e s', External e → StepErr s e s' := fun e s' h => Or.inl h
  split
  · rw [wp_fail]; exact cleanFail_of_quiet hq0 (by simp) hst0
  · rename_i user _
    rw [wp_bind]
    refine wp_emit_quiet hq0.wf ?_ hext
    intro s' hq _
    rw [wp_modify]
    have := (hq0.trans hq).trans (quiet_of (s' := { s' with
        usedUser := upd s'.usedUser user false
        userVar := upd s'.userVar g none
        mode := upd s'.mode g .hide }) hq.wf
        ⟨rfl, rfl, rfl, rfl, rfl, rfl, rfl, rfl, rfl, rfl, rfl, rfl, rfl, rfl⟩)
    exact ⟨_, this, Or.inr ⟨_, _, rfl⟩⟩

/-- What an accepted model satisfies. -/
structure ModelOk (a : List Lit) (s : St) : Prop where
  cons : ∀ l ∈ a, l.neg ∉ a
  units : ∀ l ∈ a, ∀ u, s.units l.var = some u → u.value = (!l.isNeg)
  assumed : ∀ l ∈ s.assumptions, l ∈ a
  clauses : ∀ e ∈ ents s.buffer s.clauses, ∃ l ∈ e.lits, l ∈ a

theorem modelLits_eff {s : St} (hw : WFdb s.buffer s.hashBits s.names s.clauses) (ls : List Lit) :
    ∀ seen : List Lit, (∀ l ∈ seen, l.neg ∉ seen) →
      (∀ l ∈ seen, ∀ u, s.units l.var = some u → u.value = (!l.isNeg)) →
    wp (modelLits ls seen) (fun r s' => s' = s ∧ (∀ l, l ∈ r ↔ l ∈ seen ∨ l ∈ ls) ∧
      (∀ l ∈ r, l.neg ∉ r) ∧ (∀ l ∈ r, ∀ u, s.units l.var = some u → u.value = (!l.isNeg)))
      (StepErr s) s := by
  induction ls with
  | nil =>
    intro seen h1 h2
    unfold modelLits
    rw [wp_pure]
    exact ⟨rfl, by simp, h1, h2⟩
  | cons l ls ih =>
    intro seen h1 h2
    unfold modelLits
    rw [wp_bind, wp_get]
    split
    · rw [wp_panic]; exact Or.inl (Or.inr rfl)
    · split
      · rw [wp_fail]; exact cleanFail_of_quiet (Quiet.refl hw) (by simp) rfl
      · rename_i hv
        split
        · rw [wp_fail]; exact cleanFail_of_quiet (Quiet.refl hw) (by simp) rfl
        · rename_i hn
          refine wp_mono (ih (l :: seen) ?_ ?_) ?_ (fun _ _ h => h)
          · intro m hm hm'
            rcases List.mem_cons.1 hm with rfl | hm
            · rcases List.mem_cons.1 hm' with h | h
              · exact Lit.neg_ne m h
              · exact hn h
            · rcases List.mem_cons.1 hm' with h | h
              · apply hn; rw [← h, Lit.neg_neg]; exact hm
              · exact h1 m hm h
          · intro m hm u hu
            rcases List.mem_cons.1 hm with rfl | hm
            · by_contra hne
              apply hv u
              unfold litValue
              rw [hu]
              simp only [Option.map_some, Option.some.injEq, Prod.mk.injEq, and_true]
              revert hne; cases u.value <;> cases m.isNeg <;> simp
            · exact h2 m hm u hu
          · rintro r s' ⟨e, h3, h4, h5⟩
            refine ⟨e, ?_, h4, h5⟩
            intro m
            rw [h3 m]
            simp only [List.mem_cons]
            tauto

theorem model_eff (env : Env) {s : St} (hp : Pre s) (a : List Lit) :
    wp (checkModel env a) (fun _ s' => Quiet s [.model a] s' ∧ ModelOk a s) (StepErr s) s := by
  unfold checkModel
  rw [wp_bind]
  refine wp_mono (modelLits_eff hp.wf a [] (by simp) (by simp)) ?_ (fun _ _ h => h)
  rintro r s' ⟨rfl, h1, h2, h3⟩
  simp only [List.not_mem_nil, false_or] at h1
  rw [wp_bind, wp_get]
  split
  · rw [wp_fail]; exact cleanFail_of_quiet (Quiet.refl hp.wf) (by simp) rfl
  · rename_i ha
    split
    · rw [wp_fail]; exact cleanFail_of_quiet (Quiet.refl hp.wf) (by simp) rfl
    · rename_i hc
      refine wp_emit_quiet hp.wf ?_ (fun e s' h => Or.inl h)
      intro s2 hq _
      refine ⟨hq, ?_, ?_, ?_, ?_⟩
      · intro l hl hl'; exact h2 l ((h1 l).2 hl) ((h1 _).2 hl')
      · intro l hl; exact h3 l ((h1 l).2 hl)
      · intro l hl
        have : (s'.assumptions.all fun l => decide (l ∈ r)) = true := by simpa using ha
        rw [List.all_eq_true] at this
        exact (h1 l).1 (by simpa using this l hl)
      · intro e he
        have hc : (s'.clauses.all fun b => b.2.all fun c =>
          (c.lits.slice s'.buffer).any fun l => decide (l ∈ r)) = true := by
          simpa only [Bool.not_eq_true', Bool.not_eq_false] using hc
        obtain ⟨c, hcm, rfl⟩ := List.mem_map.1 he
        obtain ⟨b, hb, hcb⟩ := mem_flat.1 hcm
        rw [List.all_eq_true] at hc
        have := hc b hb
        rw [List.all_eq_true] at this
        have := this c hcb
        rw [List.any_eq_true] at this
        obtain ⟨l, hl, hl2⟩ := this
        exact ⟨l, hl, (h1 l).1 (by simpa using hl2)⟩

/-- Accepted failed assumptions. -/
structure FailedEff (env : Env) (core : List Lit) (s s' : St) : Prop where
  sub : isSubset (copyCanonical core).1 s.assumptions false = true
  run : ∃ ids, Quiet s [.failedAssumptions (copyCanonical core).1 ids] s' ∧
    (((copyCanonical core).2 = true ∧ ids = []) ∨
     ((copyCanonical core).2 = false ∧ ∃ ids', Refuted (HasId s) ((copyCanonical core).1.map Lit.neg) ids' ∧
      (env.hasProc = true → ids = ids')))

theorem failed_eff (env : Env) {s : St} (hp : Pre s) (core : List Lit) (hashes : List Nat) :
    wp (checkFailedAssumptions env core hashes) (fun _ s' => FailedEff env core s s') (StepErr s) s := by
  unfold checkFailedAssumptions
  have h2 : (copyCanonical core).2 = false → ∀ l ∈ (copyCanonical core).1, l.neg ∉ (copyCanonical core).1 :=
    canonical_notaut
  have hadd := fun s' => FailedEff.mk (env := env) (core := core) (s := s) (s' := s')
  generalize copyCanonical core = cc at hadd h2
  obtain ⟨tmp, taut⟩ := cc
  simp only at hadd h2 ⊢
  rw [wp_bind, wp_get]
  split
  · rw [wp_fail]; exact cleanFail_of_quiet (Quiet.refl hp.wf) (by simp) rfl
  · rename_i hs
    have hs : isSubset tmp s.assumptions false = true := by simpa using hs
    split
    · rename_i ht
      rw [wp_bind, wp_modify, wp_bind, wp_get]
      refine wp_emit_quiet hp.wf ?_ (fun e s' h => Or.inl h)
      intro s' hq _
      refine hadd s' hs ⟨[], ?_, Or.inl ⟨ht, rfl⟩⟩
      exact (quiet_of (s' := { s with traceIds := [] }) hp.wf
        ⟨rfl, rfl, rfl, rfl, rfl, rfl, rfl, rfl, rfl, rfl, rfl, rfl, rfl, rfl⟩).trans hq
    · rename_i ht
      have ht : taut = false := by simpa using ht
      rw [wp_bind]
      have hn : ∀ l ∈ tmp.map Lit.neg, l.neg ∉ tmp.map Lit.neg := by
        intro l hl hl'
        obtain ⟨x, hx, rfl⟩ := List.mem_map.1 hl
        obtain ⟨y, hy, e⟩ := List.mem_map.1 hl'
        rw [Lit.neg_neg] at e
        subst e
        exact h2 ht y hy hx
      refine wp_mono (check_eff env hp hn hashes) ?_ (fun e s' h => stepErr_of_check h)
      rintro _ s0 ⟨hq0, ids, hids, htr⟩
      rw [wp_bind, wp_get]
      refine wp_emit_quiet hq0.wf ?_ (fun e s' h => Or.inl h)
      intro s' hq _
      exact hadd s' hs ⟨_, hq0.trans hq, Or.inr ⟨ht, ids, hids, htr⟩⟩

/-- Accepted proof step. -/
def StepEff (env : Env) (st : ProofStep) (s s' : St) : Prop :=
  match st with
  | .addClause c => AddEff c s s'
  | .atClause red c _ => AtEff env red c s s'
  | .unitClauses us => UnitsEff env (us.map Prod.fst) s s'
  | .deleteClause c proof => DelStepEff c proof s s'
  | .deleteVar v => DelVarEff v s s'
  | .model a => Quiet s [.model a] s' ∧ ModelOk a s
  | .assumptions a => ∃ s0, Quiet s [] s0 ∧
      Quiet { s0 with assumptions := (copyCanonical a).1 } [.assumptions (copyCanonical a).1] s'
  | .failedAssumptions core _ => FailedEff env core s s'
  | _ => ∃ o, Quiet s o s' ∧ (o = [] ∨ ∃ v u, o = [.userVar v u])

/-- Rejected proof step. -/
def StepErrEff (env : Env) (st : ProofStep) (s : St) (e : Err) (s' : St) : Prop :=
  match st with
  | .unitClauses _ => ∃ ls sm, UnitsEff env ls s sm ∧ Pre sm ∧ (External e ∨
        ∃ w, e = .checkFailed sm.step w ∧ StepErr sm e s')
  | _ => StepErr s e s'

theorem step_eff (env : Env) {s : St} (hp : Pre s) (st : ProofStep) :
    wp (checkStep env st) (fun _ s' => StepEff env st s s') (StepErrEff env st s) s := by
  unfold checkStep
  split
  · rw [wp_modify]
    exact ⟨[], quiet_of hp.wf ⟨rfl, rfl, rfl, rfl, rfl, rfl, rfl, rfl, rfl, rfl, rfl, rfl, rfl, rfl⟩, Or.inl rfl⟩
  · exact addUser_eff env hp _ _
  · exact removeUser_eff env hp _
  · exact delVar_eff env hp _
  · exact sampling_eff env hp _ _
  · exact addClause_eff env hp _
  · exact at_eff env hp _ _ _
  · exact delete_eff env hp _ _
  · exact units_eff env _ hp
  · rename_i bits
    rw [wp_modify]
    obtain ⟨m, h1, h2, h3⟩ := rehash_spec env (s := { s with hashBits := bits }) hp.wf
    rw [h1]
    exact ⟨[], ⟨⟨h2, h3, rfl, rfl, rfl, rfl, rfl, rfl, rfl⟩, rfl, rfl, by simp⟩, Or.inl rfl⟩
  · exact model_eff env hp _
  · rename_i a
    rw [wp_bind]
    refine wp_mono (wp_ensureSamplingVars a hp.wf) ?_ ?_
    · intro _ s0 hq
      rw [wp_bind, wp_modify, wp_bind, wp_get]
      refine wp_emit_quiet hq.wf ?_ (fun e s' h => Or.inl h)
      intro s' hq' _
      exact ⟨s0, hq, hq'⟩
    · rintro e s' ⟨rfl, hq⟩
      exact Or.inr (Or.inr ⟨⟨_, rfl, by simp⟩, hq.toSame, by rw [hq.out]; simp⟩)
  · exact failed_eff env hp _ _
  · rw [wp_modify]
    exact ⟨[], quiet_of hp.wf ⟨rfl, rfl, rfl, rfl, rfl, rfl, rfl, rfl, rfl, rfl, rfl, rfl, rfl, rfl⟩, Or.inl rfl⟩

theorem pre_init : Pre {} := ⟨WFdb.empty _ _, by intro v u h; simp at h, rfl⟩

end Varisat.Checker
