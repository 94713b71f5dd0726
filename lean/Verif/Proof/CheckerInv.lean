import Verif.Proof.CheckerEff
import Verif.Model.CheckerApi
/-! Invariants of the checker over histories of calls. -/
namespace Varisat.Checker

theorem entails_mono {F G : List (List Lit)} (h : ∀ c ∈ F, c ∈ G) {c : List Lit} (hc : Entails F c) :
    Entails G c := fun a ha => hc a fun d hd => ha d (h d hd)

theorem unsat_mono {F G : List (List Lit)} (h : ∀ c ∈ F, c ∈ G) (hc : Unsat F) : Unsat G :=
  fun a ha => hc a fun d hd => ha d (h d hd)

/-- Everything stored follows from `F`. -/
structure Core (F : List (List Lit)) (s : St) : Prop where
  pre : Pre s
  sound : ∀ e ∈ ents s.buffer s.clauses, Entails F e.lits
  usound : ∀ v u, s.units v = some u → Entails F [Lit.mk' v u.value]
  unsat : s.unsat = true → Unsat F
  conf : s.unitConflict.isSome = true → s.unsat = true

theorem Core.mono {F G s} (h : Core F s) (hG : ∀ c ∈ F, c ∈ G) : Core G s :=
  ⟨h.pre, fun e he => entails_mono hG (h.sound e he), fun v u hu => entails_mono hG (h.usound v u hu),
    fun hu => unsat_mono hG (h.unsat hu), h.conf⟩

theorem Core.init : Core [] {} := by
  refine ⟨pre_init, ?_, ?_, ?_, by simp⟩
  · intro e he; simp [ents, flat] at he
  · intro v u h; simp at h
  · intro h; simp at h

theorem Core.same {F s s'} (h : Core F s) (hs : Same s s') : Core F s' :=
  ⟨hs.pre h.pre, fun e he => h.sound e (hs.perm.mem_iff.1 he), fun v u hu => h.usound v u (hs.units ▸ hu),
    fun hu => h.unsat (hs.unsat ▸ hu), by rw [hs.unsat, hs.conflict]; exact h.conf⟩

theorem Core.hasId {F s} (h : Core F s) {id c} (hc : HasId s id c) : Entails F c := by
  rcases hc with ⟨e, he, -, rfl⟩ | ⟨v, b, hu, rfl⟩
  · exact h.sound e he
  · exact h.usound v _ hu

/-- A refutation over stored clauses proves the clause. -/
theorem Core.refuted {F s} (h : Core F s) {lits ids} (hr : Refuted (HasId s) lits ids) : Entails F lits := by
  obtain ⟨cls, h1, h2⟩ := hr
  intro a ha
  by_contra hn
  refine RupChain.sound h2 (a := a) ?_ ?_
  · intro l hl
    obtain ⟨m, hm, rfl⟩ := List.mem_map.1 hl
    rw [Lit.holds_neg]
    intro hh; exact hn ⟨m, hm, hh⟩
  · intro c hc
    clear h2
    induction h1 with
    | nil => simp at hc
    | cons hd _ ih =>
      rcases List.mem_cons.1 hc with rfl | hc
      · exact h.hasId hd a ha
      · exact ih hc

theorem Core.stored {F s s' lits red id res} (h : Core F s) (hl : Entails F lits)
    (hs : Stored lits red s s' id res) : Core F s' := by
  have hp := pre_stored h.pre hs
  cases hs.kind with
  | empty hl' he hu hsat hcf =>
    subst hl'
    exact ⟨hp, by rw [he]; exact h.sound, by rw [hu]; exact h.usound,
      fun _ a ha => clauseSat_nil (hl a ha), fun _ => hsat⟩
  | unitDup l id hl' hv he hu hsat hcf =>
    exact ⟨hp, by rw [he]; exact h.sound, by rw [hu]; exact h.usound, by rw [hsat]; exact h.unsat,
      by rw [hsat, hcf]; exact h.conf⟩
  | unitConflict l cid hl' hv he hu hsat =>
    subst hl'
    refine ⟨hp, by rw [he]; exact h.sound, by rw [hu]; exact h.usound, fun _ a ha => ?_, fun _ => hsat⟩
    have h1 := hl a ha
    have h2 := h.usound _ _ hv a ha
    have e : Lit.mk' l.var l.isNeg = l.neg := by
      apply Lit.ext_var_neg
      · rw [Lit.var_mk', Lit.var_neg]
      · rw [Lit.isNeg_mk', Lit.isNeg_neg]
    simp only [e] at h2
    rw [clauseSat_singleton] at h1 h2
    exact (Lit.holds_neg a l).1 h2 h1
  | unitNew l hl' hv he hu hsat hcf =>
    subst hl'
    refine ⟨hp, by rw [he]; exact h.sound, ?_, by rw [hsat]; exact h.unsat, by rw [hsat, hcf]; exact h.conf⟩
    intro v u huv
    rw [hu] at huv
    unfold upd at huv
    split at huv
    · rename_i e
      simp only [Option.some.injEq] at huv
      subst huv
      rw [e]
      simp only [Lit.mk'_var_neg]
      exact hl
    · exact h.usound v u huv
  | long id res hlo he hu hsat hcf =>
    refine ⟨hp, ?_, by rw [hu]; exact h.usound, by rw [hsat]; exact h.unsat, by rw [hsat, hcf]; exact h.conf⟩
    cases he with
    | found e R hel h1 h2 =>
      intro f hf
      rcases List.mem_cons.1 (h2.mem_iff.1 hf) with rfl | hf
      · simp only; rw [hel]; exact hl
      · exact h.sound f (h1.mem_iff.2 (List.mem_cons_of_mem _ hf))
    | fresh hn h2 =>
      intro f hf
      rcases List.mem_cons.1 (h2.mem_iff.1 hf) with rfl | hf
      · exact hl
      · exact h.sound f hf

theorem Core.bump {F s s'} (h : Core F s) (hb : Bump s s') : Core F s' := by
  have := h.same hb.same
  exact ⟨⟨this.pre.wf, this.pre.glob, this.pre.trail⟩, this.sound, this.usound, this.unsat, this.conf⟩

theorem entails_canonical {F : List (List Lit)} {c : List Lit} :
    Entails F (copyCanonical c).1 ↔ Entails F c := by
  unfold Entails
  constructor
  · intro h a ha
    exact (clauseSat_congr (fun l => mem_canonical)).1 (h a ha)
  · intro h a ha
    exact (clauseSat_congr (fun l => mem_canonical)).2 (h a ha)

theorem Core.add {F s s' c} (h : Core F s) (he : AddEff c s s') : Core (F ++ [c]) s' := by
  have h' := h.mono (G := F ++ [c]) (by intro d hd; simp [hd])
  have hc : Entails (F ++ [c]) (copyCanonical c).1 :=
    entails_canonical.2 fun a ha => ha c (by simp)
  cases he with
  | skipped _ e => rw [e]; exact h'
  | taut s1 _ _ hq hb => exact (h'.same hq.toSame).bump hb
  | new s0 s1 id _ _ hq hst hq1 => exact ((h'.same hq.toSame).stored hc hst).same hq1.toSame
  | irred s0 s1 s2 id _ _ hq hst hq1 hb => exact (((h'.same hq.toSame).stored hc hst).same hq1.toSame).bump hb
  | dup s0 s1 s2 id _ _ hq hst hq1 hb => exact (((h'.same hq.toSame).stored hc hst).same hq1.toSame).bump hb

/-- The effect of a derivation only adds implied clauses. -/
theorem Core.at {F env s s' red c} (h : Core F s) (he : AtEff env red c s s') :
    Core F s' ∧ Entails F c := by
  obtain ⟨s0, s1, s2, id, res, ids, hq, hr, -, hst, hs2, hq2⟩ := he.run
  have hc := h.refuted hr
  have h1 := (h.same hq.toSame).stored hc hst
  refine ⟨Core.same (s := s2) ?_ hq2.toSame, entails_canonical.1 hc⟩
  rw [hs2]
  split
  · exact h1
  · exact ⟨⟨h1.pre.wf, h1.pre.glob, h1.pre.trail⟩, h1.sound, h1.usound, h1.unsat, h1.conf⟩

theorem Core.units {F env ls s s'} (h : Core F s) (he : UnitsEff env ls s s') :
    Core F s' ∧ ∀ l ∈ ls, Entails F [l] := by
  induction he with
  | nil s hw => exact ⟨h, by simp⟩
  | cons l ls s s0 s1 s2 s' id res ids hq hr htr hst hq2 tail ih =>
    have hc := h.refuted hr
    obtain ⟨h1, h2⟩ := ih (((h.same hq.toSame).stored hc hst).same hq2.toSame)
    refine ⟨h1, ?_⟩
    intro m hm
    rcases List.mem_cons.1 hm with rfl | hm
    · exact hc
    · exact h2 m hm

theorem DelEff.sub {red lits es es' id r} (h : DelEff red lits es es' id r) :
    ∀ e' ∈ es', ∃ e ∈ es, e.lits = e'.lits ∧ e.id = e'.id ∧ e'.irred ≤ e.irred := by
  cases h with
  | gone e R hl h1 _ _ h2 =>
    intro f hf
    exact ⟨f, h1.mem_iff.2 (List.mem_cons_of_mem _ (h2.mem_iff.1 hf)), rfl, rfl, Nat.le_refl _⟩
  | kept e R hl h1 _ _ h2 =>
    intro f hf
    rcases List.mem_cons.1 (h2.mem_iff.1 hf) with rfl | hf
    · exact ⟨e, h1.mem_iff.2 (by simp), rfl, rfl, by simp only; omega⟩
    · exact ⟨f, h1.mem_iff.2 (List.mem_cons_of_mem _ hf), rfl, rfl, Nat.le_refl _⟩

theorem Core.del {F s s' c proof} (h : Core F s) (he : DelStepEff c proof s s') : Core F s' := by
  obtain ⟨id, r, s1, o, hd, hw, hu, hsat, hcf, -, htr, -, -, -, -, -, -, hq⟩ := he.run
  refine Core.same (s := s1) ⟨⟨hw, by rw [hu]; exact h.pre.glob, by rw [htr]; exact h.pre.trail⟩, ?_,
    by rw [hu]; exact h.usound, by rw [hsat]; exact h.unsat, by rw [hsat, hcf]; exact h.conf⟩ hq.toSame
  intro e' he'
  obtain ⟨e, he, h1, -, -⟩ := hd.sub e' he'
  rw [← h1]; exact h.sound e he

theorem Core.delVar {F s s' v} (h : Core F s) (he : DelVarEff v s s') : Core F s' := by
  cases he with
  | free _ _ hq => exact h.same hq.toSame
  | unit id b s1 _ hu hq hq' =>
    have h1 := h.same hq.toSame
    refine Core.same (s := { s1 with units := upd s1.units v none }) ?_ hq'.toSame
    have key : ∀ w u, upd s1.units v none w = some u → s1.units w = some u := by
      intro w u hw
      unfold upd at hw
      split at hw
      · simp at hw
      · exact hw
    exact ⟨⟨h1.pre.wf, fun w u hw => h1.pre.glob w u (key w u hw), h1.pre.trail⟩, h1.sound,
      fun w u hw => h1.usound w u (key w u hw), h1.unsat, h1.conf⟩

/-- Clauses added by a proof step. -/
def stepAdded : ProofStep → List (List Lit)
  | .addClause c => [c]
  | _ => []

theorem Core.step {F env s s' st} (h : Core F s) (he : StepEff env st s s') :
    Core (F ++ stepAdded st) s' := by
  unfold StepEff at he
  split at he
  · exact h.add he
  · simp only [stepAdded, List.append_nil]; exact (h.at he).1
  · simp only [stepAdded, List.append_nil]; exact (h.units he).1
  · simp only [stepAdded, List.append_nil]; exact h.del he
  · simp only [stepAdded, List.append_nil]; exact h.delVar he
  · simp only [stepAdded, List.append_nil]; exact h.same he.1.toSame
  · simp only [stepAdded, List.append_nil]
    obtain ⟨s0, hq, hq'⟩ := he
    have h0 := h.same hq.toSame
    refine Core.same ?_ hq'.toSame
    exact ⟨⟨h0.pre.wf, h0.pre.glob, h0.pre.trail⟩, h0.sound, h0.usound, h0.unsat, h0.conf⟩
  · simp only [stepAdded, List.append_nil]
    obtain ⟨ids, hq, -⟩ := he.run
    exact h.same hq.toSame
  · obtain ⟨o, hq, -⟩ := he
    refine (h.same hq.toSame).mono ?_
    intro c hc; simp [hc]

/-! ### Calls -/

theorem quiet_step {s : St} (hp : Pre s) : Quiet s [] { s with step := s.step + 1 } :=
  quiet_of hp.wf ⟨rfl, rfl, rfl, rfl, rfl, rfl, rfl, rfl, rfl, rfl, rfl, rfl, rfl, rfl⟩

/-- Accepted call. -/
def OpEff (env : Env) (op : Op) (s s' : St) : Prop :=
  match op with
  | .add c => AddEff c s s'
  | .step st => StepEff env st { s with step := s.step + 1 } s'

/-- Rejected call. -/
def OpErr (env : Env) (op : Op) (s : St) (e : Err) (s' : St) : Prop :=
  match op with
  | .add _ => StepErr s e s'
  | .step st => StepErrEff env st { s with step := s.step + 1 } e s'

theorem op_eff (env : Env) {s : St} (hp : Pre s) (op : Op) :
    wp (op.exec env) (fun _ s' => OpEff env op s s') (OpErr env op s) s := by
  cases op with
  | add c => exact addClause_eff env hp c
  | step st =>
    show wp (selfCheckStep env st) _ _ s
    unfold selfCheckStep
    rw [wp_bind, wp_modify]
    exact step_eff env ((quiet_step hp).toSame.pre hp) st

theorem op_ok {env s s' op} (hp : Pre s) (h : op.exec env s = .ok () s') : OpEff env op s s' := by
  have := op_eff env hp op
  unfold wp at this
  rw [h] at this
  exact this

theorem Core.op {F env s s' op} (h : Core F s) (he : OpEff env op s s') : Core (F ++ op.added) s' := by
  cases op with
  | add c => exact h.add he
  | step st =>
    have := Core.step (h.same (quiet_step h.pre).toSame) he
    refine this.mono ?_
    intro c hc
    cases st <;> simpa [stepAdded, Op.added] using hc

theorem StepErr.core {F s s' n w} (h : Core F s) (he : StepErr s (.checkFailed n w) s')
    (hw : ∀ h, w ≠ .noClauseForHash h) : Core F s' := by
  rcases he with h1 | ⟨k, h1⟩ | ⟨-, h1, -⟩
  · rcases h1 with h1 | h1 <;> simp at h1
  · simp only [Err.checkFailed.injEq] at h1; exact absurd h1.2 (hw k)
  · exact h.same h1

theorem Core.err {F env s s' op n w} (h : Core F s) (he : OpErr env op s (.checkFailed n w) s')
    (hw : ∀ h, w ≠ .noClauseForHash h) : Core F s' := by
  cases op with
  | add c => exact he.core h hw
  | step st =>
    have h' := h.same (quiet_step h.pre).toSame
    unfold OpErr StepErrEff at he
    simp only at he
    split at he
    · obtain ⟨ls, sm, h1, -, h2⟩ := he
      rcases h2 with h2 | ⟨w', -, h2⟩
      · rcases h2 with h2 | h2 <;> simp at h2
      · exact h2.core (h'.units h1).1 hw
    · exact he.core h' hw

theorem Ran.core {env F s} (h : Ran env F s) : Core F s := by
  induction h with
  | init => exact Core.init
  | accept op _ he ih => exact ih.op (op_ok ih.pre he)
  | reject op n w _ he hw ih => exact ih.err (wp_err (op_eff env ih.pre op) he) hw

theorem execs_ok {env op ops s s'} (h : execs env (op :: ops) s = .ok () s') :
    ∃ s1, op.exec env s = .ok () s1 ∧ execs env ops s1 = .ok () s' := by
  unfold execs at h
  have h : EStateM.bind (op.exec env) (fun _ => execs env ops) s = .ok () s' := h
  unfold EStateM.bind at h
  cases hx : op.exec env s with
  | ok a s1 => rw [hx] at h; exact ⟨s1, rfl, h⟩
  | error e s1 => rw [hx] at h; simp at h

theorem ran_execs {env ops} : ∀ {F s s'}, Ran env F s → execs env ops s = .ok () s' →
    Ran env (F ++ added ops) s' := by
  induction ops with
  | nil =>
    intro F s s' h he
    have he : (EStateM.Result.ok () s : EStateM.Result Err St Unit) = .ok () s' := he
    simp only [EStateM.Result.ok.injEq, true_and] at he
    subst he
    simpa [added] using h
  | cons op ops ih =>
    intro F s s' h he
    obtain ⟨s1, h1, h2⟩ := execs_ok he
    have := ih (Ran.accept op h h1) h2
    simpa [added, List.flatMap_cons, List.append_assoc] using this

/-! ### Completeness: nothing is lost -/

/-- The assignment satisfies the irredundant clauses and the unit clauses held by the checker. -/
structure DbSat (a : Asg) (s : St) : Prop where
  long : ∀ e ∈ ents s.buffer s.clauses, 0 < e.irred → clauseSat a e.lits
  unit : ∀ v u, s.units v = some u → (Lit.mk' v u.value).holds a

/-- The clause is held as irredundant or unit clause. -/
def InDb (s : St) (c : List Lit) : Prop :=
  (∃ e ∈ ents s.buffer s.clauses, 0 < e.irred ∧ e.lits = c) ∨
  (∃ v u, s.units v = some u ∧ c = [Lit.mk' v u.value])

theorem DbSat.inDb {a s c} (h : DbSat a s) (hc : InDb s c) : clauseSat a c := by
  rcases hc with ⟨e, he, h1, rfl⟩ | ⟨v, u, hu, rfl⟩
  · exact h.long e he h1
  · rw [clauseSat_singleton]; exact h.unit v u hu

structure Full (F : List (List Lit)) (s : St) : Prop where
  sorted : SSorted s.prevLits
  complete : s.unsat = false → ∀ a, DbSat a s → cnfSat a F
  prev : s.unsat = false → s.prevId.isSome → InDb s s.prevLits

theorem DbSat.same {a s s'} (hs : Same s s') : DbSat a s' ↔ DbSat a s := by
  constructor
  · rintro ⟨h1, h2⟩
    exact ⟨fun e he => h1 e (hs.perm.mem_iff.2 he), fun v u hu => h2 v u (by rw [hs.units]; exact hu)⟩
  · rintro ⟨h1, h2⟩
    exact ⟨fun e he => h1 e (hs.perm.mem_iff.1 he), fun v u hu => h2 v u (by rw [← hs.units]; exact hu)⟩

theorem InDb.same {c s s'} (hs : Same s s') : InDb s' c ↔ InDb s c := by
  unfold InDb
  rw [hs.units]
  constructor
  · rintro (⟨e, he, h1⟩ | h1)
    · exact Or.inl ⟨e, hs.perm.mem_iff.1 he, h1⟩
    · exact Or.inr h1
  · rintro (⟨e, he, h1⟩ | h1)
    · exact Or.inl ⟨e, hs.perm.mem_iff.2 he, h1⟩
    · exact Or.inr h1

theorem Full.init : Full [] {} := ⟨by simp [SSorted], fun _ a _ => cnfSat_nil, fun _ h => by simp at h⟩

theorem Full.quiet {F s s' o} (h : Full F s) (hq : Quiet s o s') : Full F s' :=
  ⟨hq.prevLits ▸ h.sorted, fun hu a ha => h.complete (hq.unsat ▸ hu) a ((DbSat.same hq.toSame).1 ha), fun hu hp => by
    rw [hq.prevLits]
    exact (InDb.same hq.toSame).2 (h.prev (hq.unsat ▸ hu) (hq.prevId ▸ hp))⟩

theorem Full.bump {F s s'} (h : Full F s) (hb : Bump s s') : Full F s' := by
  have hq : Quiet s [] { s' with nextId := s.nextId } :=
    ⟨hb.same, hb.prevId, hb.prevLits, by simp only [hb.out, List.append_nil]⟩
  have := h.quiet hq
  exact ⟨this.sorted, fun hu a ha => this.complete hu a ⟨ha.long, ha.unit⟩, fun hu hp => this.prev hu hp⟩

/-- Storing only strengthens the database. -/
theorem Stored.dbSat {s s' lits red id res} (hs : Stored lits red s s' id res) {a} (h : DbSat a s') :
    DbSat a s := by
  cases hs.kind with
  | empty hl he hu => exact ⟨by rw [← he]; exact h.long, by rw [← hu]; exact h.unit⟩
  | unitDup l id hl hv he hu => exact ⟨by rw [← he]; exact h.long, by rw [← hu]; exact h.unit⟩
  | unitConflict l id hl hv he hu => exact ⟨by rw [← he]; exact h.long, by rw [← hu]; exact h.unit⟩
  | unitNew l hl hv he hu =>
    refine ⟨by rw [← he]; exact h.long, ?_⟩
    intro v u huv
    refine h.unit v u ?_
    rw [hu, upd_ne]
    · exact huv
    · rintro rfl; rw [hv] at huv; simp at huv
  | long id res hl he hu =>
    refine ⟨?_, by rw [← hu]; exact h.unit⟩
    intro e hem hpos
    cases he with
    | found f R hel h1 h2 =>
      rcases List.mem_cons.1 (h1.mem_iff.1 hem) with rfl | hm
      · refine h.long { e with
          irred := e.irred + (if red then 0 else 1)
          red := e.red + (if red then 1 else 0) } (h2.mem_iff.2 (by simp)) ?_
        simp only; omega
      · exact h.long e (h2.mem_iff.2 (List.mem_cons_of_mem _ hm)) hpos
    | fresh hn h2 => exact h.long e (h2.mem_iff.2 (List.mem_cons_of_mem _ hem)) hpos

theorem Stored.inDb_mono {s s' lits red id res} (hs : Stored lits red s s' id res) {c} (h : InDb s c) :
    InDb s' c := by
  rcases h with ⟨e, hem, hpos, rfl⟩ | ⟨v, u, huv, rfl⟩
  · left
    cases hs.kind with
    | empty hl he hu => exact ⟨e, by rw [he]; exact hem, hpos, rfl⟩
    | unitDup l id hl hv he hu => exact ⟨e, by rw [he]; exact hem, hpos, rfl⟩
    | unitConflict l id hl hv he hu => exact ⟨e, by rw [he]; exact hem, hpos, rfl⟩
    | unitNew l hl hv he hu => exact ⟨e, by rw [he]; exact hem, hpos, rfl⟩
    | long id res hl he hu =>
      cases he with
      | found f R hel h1 h2 =>
        rcases List.mem_cons.1 (h1.mem_iff.1 hem) with rfl | hm
        · refine ⟨_, h2.mem_iff.2 (List.mem_cons_self ..), ?_, rfl⟩
          simp only; omega
        · exact ⟨e, h2.mem_iff.2 (List.mem_cons_of_mem _ hm), hpos, rfl⟩
      | fresh hn h2 => exact ⟨e, h2.mem_iff.2 (List.mem_cons_of_mem _ hem), hpos, rfl⟩
  · right
    cases hs.kind with
    | empty hl he hu => exact ⟨v, u, by rw [hu]; exact huv, rfl⟩
    | unitDup l id hl hv he hu => exact ⟨v, u, by rw [hu]; exact huv, rfl⟩
    | unitConflict l id hl hv he hu => exact ⟨v, u, by rw [hu]; exact huv, rfl⟩
    | unitNew l hl hv he hu =>
      refine ⟨v, u, ?_, rfl⟩
      rw [hu, upd_ne]
      · exact huv
      · rintro rfl; rw [hv] at huv; simp at huv
    | long id res hl he hu => exact ⟨v, u, by rw [hu]; exact huv, rfl⟩

/-- An irredundantly stored clause is in the database. -/
theorem Stored.inDb {s s' lits id res} (hs : Stored lits false s s' id res) (hu : s'.unsat = false) :
    InDb s' lits := by
  cases hs.kind with
  | empty hl he hu' hsat => rw [hsat] at hu; simp at hu
  | unitDup l id hl hv he hu' =>
    right
    exact ⟨l.var, _, by rw [hu']; exact hv, by rw [hl, Lit.mk'_var_neg]⟩
  | unitConflict l id hl hv he hu' hsat => rw [hsat] at hu; simp at hu
  | unitNew l hl hv he hu' =>
    right
    exact ⟨l.var, _, by rw [hu', upd_same], by rw [hl, Lit.mk'_var_neg]⟩
  | long id res hl he hu' =>
    left
    cases he with
    | found f R hel h1 h2 =>
      exact ⟨_, h2.mem_iff.2 (List.mem_cons_self ..), by simp, hel⟩
    | fresh hn h2 => exact ⟨_, h2.mem_iff.2 (List.mem_cons_self ..), by simp, rfl⟩

theorem Stored.unsat_mono {s s' lits red id res} (hs : Stored lits red s s' id res)
    (hu : s'.unsat = false) : s.unsat = false := by
  cases hs.kind with
  | empty hl he hu' hsat => rw [hsat] at hu; simp at hu
  | unitDup l id hl hv he hu' hsat => rw [← hsat]; exact hu
  | unitConflict l id hl hv he hu' hsat => rw [hsat] at hu; simp at hu
  | unitNew l hl hv he hu' hsat => rw [← hsat]; exact hu
  | long id res hl he hu' hsat => rw [← hsat]; exact hu

theorem Full.stored {F s s' lits red id res} (h : Full F s) (hs : Stored lits red s s' id res) :
    Full F s' :=
  ⟨hs.prevLits ▸ h.sorted, fun hu a ha => h.complete (hs.unsat_mono hu) a (hs.dbSat ha), fun hu hp => by
    rw [hs.prevLits]
    exact hs.inDb_mono (h.prev (hs.unsat_mono hu) (hs.prevId ▸ hp))⟩

theorem Full.add {F s s' c} (h : Full F s) (he : AddEff c s s') : Full (F ++ [c]) s' := by
  have fin : ∀ s0 s1 s2 id res o, s.unsat = false → Quiet s [] s0 →
      Stored (copyCanonical c).1 false s0 s1 id res → Quiet s1 o s2 → Full (F ++ [c]) s2 := by
    intro s0 s1 s2 id res o hu hq hst hq1
    have h1 := (h.quiet hq).stored hst
    refine Full.quiet (s := s1) ⟨h1.sorted, ?_, h1.prev⟩ hq1
    intro hu1 a ha
    rw [cnfSat_append]
    refine ⟨h1.complete hu1 a ha, ?_⟩
    intro d hd
    simp only [List.mem_singleton] at hd
    subst hd
    exact (clauseSat_congr (fun l => mem_canonical)).1 (ha.inDb (hst.inDb hu1))
  cases he with
  | skipped hu e =>
    rw [e]
    exact ⟨h.sorted, fun hu' => by rw [hu] at hu'; simp at hu', h.prev⟩
  | taut s1 hu ht hq hb =>
    have h1 := h.quiet hq
    refine Full.bump (s := s1) ⟨h1.sorted, ?_, h1.prev⟩ hb
    intro hu1 a ha
    rw [cnfSat_append]
    refine ⟨h1.complete hu1 a ha, ?_⟩
    intro d hd
    simp only [List.mem_singleton] at hd
    subst hd
    obtain ⟨l, h1, h2⟩ := (canonical_taut d).1 ht
    rcases Lit.holds_or_neg a l with hh | hh
    · exact ⟨l, h1, hh⟩
    · exact ⟨_, h2, hh⟩
  | new s0 s1 id hu ht hq hst hq1 => exact fin s0 s1 _ id _ _ hu hq hst hq1
  | irred s0 s1 s2 id hu ht hq hst hq1 hb => exact (fin s0 s1 _ id _ _ hu hq hst hq1).bump hb
  | dup s0 s1 s2 id hu ht hq hst hq1 hb => exact (fin s0 s1 _ id _ _ hu hq hst hq1).bump hb

theorem Full.at {F env s s' red c} (h : Full F s) (he : AtEff env red c s s') : Full F s' := by
  obtain ⟨s0, s1, s2, id, res, ids, hq, hr, -, hst, hs2, hq2⟩ := he.run
  have h1 := (h.quiet hq).stored hst
  refine Full.quiet (s := s2) ?_ hq2
  rw [hs2]
  cases red
  · simp only [Bool.false_eq_true, if_false]
    exact ⟨canonical_ssorted c, fun hu a ha => h1.complete hu a ⟨ha.long, ha.unit⟩, fun hu _ => hst.inDb hu⟩
  · simp only [if_true]; exact h1

theorem Full.units {F env ls s s'} (h : Full F s) (he : UnitsEff env ls s s') : Full F s' := by
  induction he with
  | nil s hw => exact h
  | cons l ls s s0 s1 s2 s' id res ids hq hr htr hst hq2 tail ih =>
    exact ih (((h.quiet hq).stored hst).quiet hq2)

/-- Entries other than the deleted clause survive a deletion. -/
theorem DelEff.other {red lits es es' id r} (h : DelEff red lits es es' id r) {e : Entry} (he : e ∈ es)
    (hne : e.lits ≠ lits) : e ∈ es' := by
  cases h with
  | gone f R hl h1 _ _ h2 =>
    rcases List.mem_cons.1 (h1.mem_iff.1 he) with rfl | hm
    · exact absurd hl hne
    · exact h2.mem_iff.2 hm
  | kept f R hl h1 _ _ h2 =>
    rcases List.mem_cons.1 (h1.mem_iff.1 he) with rfl | hm
    · exact absurd hl hne
    · exact h2.mem_iff.2 (List.mem_cons_of_mem _ hm)

/-- Redundant deletions leave irredundant clauses alone. -/
theorem DelEff.redundant {lits es es' id r} (h : DelEff true lits es es' id r) {e : Entry} (he : e ∈ es)
    (hpos : 0 < e.irred) : ∃ e' ∈ es', e'.lits = e.lits ∧ e'.irred = e.irred := by
  cases h with
  | gone f R hl h1 _ hz h2 =>
    rcases List.mem_cons.1 (h1.mem_iff.1 he) with rfl | hm
    · simp at hz; omega
    · exact ⟨e, h2.mem_iff.2 hm, rfl, rfl⟩
  | kept f R hl h1 _ _ h2 =>
    rcases List.mem_cons.1 (h1.mem_iff.1 he) with rfl | hm
    · exact ⟨_, h2.mem_iff.2 (List.mem_cons_self ..), rfl, by simp⟩
    · exact ⟨e, h2.mem_iff.2 (List.mem_cons_of_mem _ hm), rfl, rfl⟩

theorem Full.del {F s s' c proof} (h : Full F s)
    (he : DelStepEff c proof s s') : Full F s' := by
  obtain ⟨id, r, s1, o, hd, hw, hu, hsat, -, -, htr, -, -, hpid, hpl, -, -, hq⟩ := he.run
  refine Full.quiet (s := s1) ⟨by rw [hpl]; simp [SSorted], ?_, by rw [hpid]; intro _ h; simp at h⟩ hq
  intro hus a ha
  rw [hsat] at hus
  refine h.complete hus a ⟨?_, by rw [← hu]; exact ha.unit⟩
  intro e hem hpos
  by_cases hne : e.lits = (copyCanonical c).1
  · have hj := he.just
    cases proof with
    | redundant =>
      obtain ⟨e', he', h1, h2⟩ := DelEff.redundant hd hem hpos
      rw [← h1]; exact ha.long e' he' (by rw [h2]; exact hpos)
    | satisfied =>
      obtain ⟨l, hl, id, hul⟩ := hj
      rw [hne]
      refine ⟨l, hl, ?_⟩
      have := ha.unit l.var _ (by rw [hu]; exact hul)
      rwa [Lit.mk'_var_neg] at this
    | simplified =>
      obtain ⟨hsome, hsub⟩ := hj
      have hsub' := (isSubsetLoop_spec h.sorted (canonical_ssorted c) (st := false)).1 (by
        unfold isSubset at hsub; exact hsub)
      rw [hne]
      have hin := h.prev hus hsome
      have hin1 : InDb s1 s.prevLits := by
        rcases hin with ⟨f, hf, hfp, hfl⟩ | ⟨v, u, hv, hl⟩
        · refine Or.inl ⟨f, ?_, hfp, hfl⟩
          refine hd.other hf ?_
          rw [hfl]
          intro e
          rcases hsub'.2 with h | ⟨l, hl, hnl⟩
          · simp at h
          · rw [e] at hnl; exact hnl hl
        · exact Or.inr ⟨v, u, by rw [hu]; exact hv, hl⟩
      exact clauseSat_mono hsub'.1 (ha.inDb hin1)
  · exact ha.long e (hd.other hem hne) hpos

theorem Full.step {F env s s' st} (h : Full F s) (hst : ∀ v, st ≠ .deleteVar v)
    (he : StepEff env st s s') : Full (F ++ stepAdded st) s' := by
  unfold StepEff at he
  split at he
  · exact h.add he
  · simp only [stepAdded, List.append_nil]; exact h.at he
  · simp only [stepAdded, List.append_nil]; exact h.units he
  · simp only [stepAdded, List.append_nil]; exact h.del he
  · exact absurd rfl (hst _)
  · simp only [stepAdded, List.append_nil]; exact h.quiet he.1
  · simp only [stepAdded, List.append_nil]
    obtain ⟨s0, hq, hq'⟩ := he
    have h0 := h.quiet hq
    refine Full.quiet ?_ hq'
    exact ⟨h0.sorted, fun hu a ha => h0.complete hu a ⟨ha.long, ha.unit⟩, h0.prev⟩
  · simp only [stepAdded, List.append_nil]
    obtain ⟨ids, hq, -⟩ := he.run
    exact h.quiet hq
  · obtain ⟨o, hq, -⟩ := he
    have : stepAdded st = [] := by
      cases st <;> first | rfl | (exfalso; rename_i h _ _ _ _ _ _ _; exact h _ rfl)
    rw [this, List.append_nil]
    exact h.quiet hq

theorem Full.op {F env s s' op} (hp : Pre s) (h : Full F s) (hop : ∀ v, op ≠ .step (.deleteVar v))
    (he : OpEff env op s s') : Full (F ++ op.added) s' := by
  cases op with
  | add c => exact h.add he
  | step st =>
    have := Full.step (h.quiet (quiet_step hp)) (fun v hv => hop v (by rw [hv])) he
    cases st <;> simpa [stepAdded, Op.added] using this

theorem full_execs {env ops} : ∀ {F s s'}, Core F s → Full F s → NoDeleteVar ops →
    execs env ops s = .ok () s' → Core (F ++ added ops) s' ∧ Full (F ++ added ops) s' := by
  induction ops with
  | nil =>
    intro F s s' hc h _ he
    have he : (EStateM.Result.ok () s : EStateM.Result Err St Unit) = .ok () s' := he
    simp only [EStateM.Result.ok.injEq, true_and] at he
    subst he
    simpa [added] using And.intro hc h
  | cons op ops ih =>
    intro F s s' hc h hn he
    obtain ⟨s1, h1, h2⟩ := execs_ok he
    have heff := op_ok hc.pre h1
    have := ih (hc.op heff) (h.op hc.pre (fun v hv => hn v (by simp [hv])) heff)
      (fun v hv => hn v (List.mem_cons_of_mem _ hv)) h2
    simpa [added, List.flatMap_cons, List.append_assoc] using this

/-! ### Assumptions -/

theorem Stored.asm {lits red s s' id res} (h : Stored lits red s s' id res) :
    s'.assumptions = s.assumptions := h.assumptions

theorem UnitsEff.asm {env ls s s'} (h : UnitsEff env ls s s') : s'.assumptions = s.assumptions := by
  induction h with
  | nil => rfl
  | cons l ls s s0 s1 s2 s' id res ids hq hr htr hst hq2 tail ih =>
    rw [ih, hq2.assumptions, hst.assumptions, hq.assumptions]

theorem AddEff.asm {c s s'} (h : AddEff c s s') : s'.assumptions = s.assumptions := by
  cases h with
  | skipped _ e => rw [e]
  | taut s1 _ _ hq hb => rw [← hq.assumptions]; exact hb.same.assumptions
  | new s0 s1 id _ _ hq hst hq1 => rw [hq1.assumptions, hst.assumptions, hq.assumptions]
  | irred s0 s1 s2 id _ _ hq hst hq1 hb =>
    rw [← hq.assumptions, ← hst.assumptions, ← hq1.assumptions]; exact hb.same.assumptions
  | dup s0 s1 s2 id _ _ hq hst hq1 hb =>
    rw [← hq.assumptions, ← hst.assumptions, ← hq1.assumptions]; exact hb.same.assumptions

theorem StepEff.asm {env st s s'} (he : StepEff env st s s') :
    s'.assumptions = match st with
      | .assumptions a => (copyCanonical a).1
      | _ => s.assumptions := by
  unfold StepEff at he
  split at he
  · exact he.asm
  · obtain ⟨s0, s1, s2, id, res, ids, hq, hr, -, hst, hs2, hq2⟩ := he.run
    simp only
    rw [hq2.assumptions, hs2, ← hq.assumptions, ← hst.assumptions]
    split <;> rfl
  · exact he.asm
  · obtain ⟨id, r, s1, o, hd, hw, hu, hsat, -, -, -, ha, -, -, -, -, -, hq⟩ := he.run
    simp only
    rw [hq.assumptions, ha]
  · cases he with
    | free _ _ hq => exact hq.assumptions
    | unit id b s1 _ hu hq hq' => simp only; rw [hq'.assumptions]; exact hq.assumptions
  · exact he.1.assumptions
  · obtain ⟨s0, hq, hq'⟩ := he
    exact hq'.assumptions
  · obtain ⟨ids, hq, -⟩ := he.run
    exact hq.assumptions
  · obtain ⟨o, hq, -⟩ := he
    cases st <;> first | exact hq.assumptions | (exfalso; rename_i h _; exact h _ rfl)

theorem asm_execs {env ops} : ∀ {F s s' A}, Core F s → s.assumptions = (copyCanonical A).1 →
    execs env ops s = .ok () s' → s'.assumptions = (copyCanonical (assumedBy A ops)).1 := by
  induction ops with
  | nil =>
    intro F s s' A hc h he
    have he : (EStateM.Result.ok () s : EStateM.Result Err St Unit) = .ok () s' := he
    simp only [EStateM.Result.ok.injEq, true_and] at he
    subst he
    simpa [assumedBy] using h
  | cons op ops ih =>
    intro F s s' A hc h he
    obtain ⟨s1, h1, h2⟩ := execs_ok he
    have heff := op_ok hc.pre h1
    have hc1 := hc.op heff
    cases op with
    | add c => exact ih hc1 ((AddEff.asm heff).trans h) h2
    | step st =>
      have ha := StepEff.asm (s := { s with step := s.step + 1 }) heff
      cases st <;> first | exact ih hc1 (ha.trans h) h2 | exact ih hc1 ha h2

end Varisat.Checker
