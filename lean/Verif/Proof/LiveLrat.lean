import Verif.Proof.LratFile
import Verif.Proof.CheckerReorder
/-! The steps of a checker that follows a solver are a valid LRAT proof. -/
namespace Varisat.Checker
open Spec.Lrat Spec.LratCheck

/-- How the solver tells the checker of a step before the first `solve`. -/
def liveOp : ProofStep → Op
  | .addClause c => .add c
  | st => .step st

theorem step_less {strict d st d'} (h : Replay.Step strict d st d') (hn : ¬ st.isInput) (ha : ∀ id r c ps, st ≠ .atClause id r c ps) :
    (∀ i c, d'.live i = some c → d.live i = some c) ∧
      (lratEvents st = [] ∨ ∃ id c, lratEvents st = [.del id] ∧ d.live id = some c ∧ d'.live id = none) := by
  have less : ∀ {live : Nat → Option (List Lit)} {id i : Nat} {c : List Lit}, Replay.set live id none i = some c → live i = some c := by
    intro live id i c k
    simp only [Replay.set] at k
    split at k
    · cases k
    · exact k
  cases h with
  | add => exact absurd trivial hn
  | dup => exact absurd trivial hn
  | taut => exact absurd trivial hn
  | rup => exact absurd rfl (ha _ _ _ _)
  | del id c hl => exact ⟨fun i c => less, .inr ⟨id, c, rfl, hl, by simp [Replay.set]⟩⟩
  | delAt id keep c ps hl hr =>
    cases keep with
    | true => exact ⟨fun i c h => h, .inl rfl⟩
    | false => exact ⟨fun i c => less, .inr ⟨id, c, rfl, hl, by simp [Replay.set]⟩⟩
  | delRat id keep c pivot hl hp hno =>
    refine ⟨fun i c => less, ?_⟩
    cases keep with
    | true => exact .inl rfl
    | false => exact .inr ⟨id, c, rfl, hl, by simp [Replay.set]⟩
  | _ => exact ⟨fun i c h => h, .inl rfl⟩

theorem Loaded.same {F P : List (List Lit)} {s s' : St} (h : Loaded F P s) (ho : s'.out = s.out) (hr : Rep True s')
    (hn : s'.nextId = s.nextId) (hu : s'.unsat = s.unsat) : Loaded F P s' := by
  obtain ⟨⟨d, h1, h2, h3⟩, h4, h5, h6, h7, h8⟩ := h
  obtain ⟨d', k1, k2⟩ := hr
  have e : d' = d := run_det k1 (by rw [ho]; exact h1)
  subst e
  exact ⟨⟨d', k1, k2, by rw [ho]; exact h3⟩, by rw [hn, h4], by rw [ho]; exact h5, by rw [ho]; exact h6, by rw [ho]; exact h7,
    by rw [hu]; exact h8⟩

theorem Loaded.one {F P : List (List Lit)} {s s' : St} {st : CheckedStep} (h : Loaded F P s) (ho : s'.out = s.out ++ [st]) (hr : Rep True s')
    (hi : ¬ st.isInput) (ha : ∀ id r c ps, st ≠ .atClause id r c ps) (hn : s'.nextId = s.nextId) (hu : s'.unsat = s.unsat) : Loaded F P s' := by
  obtain ⟨⟨d, h1, h2, h3⟩, h4, h5, h6, h7, h8⟩ := h
  obtain ⟨d', k1, k2⟩ := hr
  have k1' := k1
  rw [ho] at k1'
  obtain ⟨d1, q1, q2⟩ := run_inv k1'
  have e := run_det q1 h1
  subst e
  obtain ⟨r1, r2⟩ := step_less q2 hi ha
  have hevs : evs s'.out = evs s.out ++ lratEvents st := by rw [ho, evs_append]; simp [evs]
  rcases r2 with r2 | ⟨id, c, r2, r3, r4⟩
  · rw [r2, List.append_nil] at hevs
    exact ⟨⟨d', k1, k2, fun i c hc => by rw [hevs]; exact h3 i c (r1 i c hc)⟩, by rw [hn, h4], by rw [hevs]; exact h5, by rw [hevs]; exact h6,
      by rw [hevs]; exact h7, by rw [hu]; exact h8⟩
  · rw [r2] at hevs
    have hafter : lratAfter (start (F.map ints)) (evs s'.out) = Spec.LratCheck.step (lratAfter (start (F.map ints)) (evs s.out)) (.del id) := by
      rw [hevs, lratAfter_append]; rfl
    obtain ⟨x1, c0, x2, x3, x4⟩ := h3 id c r3
    refine ⟨⟨d', k1, k2, fun i c hc => ?_⟩, by rw [hn, h4], ?_, ?_, fun i hi => ?_, by rw [hu]; exact h8⟩
    · obtain ⟨y1, c1, y2, y3, y4⟩ := h3 i c (r1 i c hc)
      refine ⟨y1, c1, y2, y3, ?_⟩
      rw [hafter]
      show (if i = id then none else _) = _
      rw [if_neg (by rintro rfl; rw [r4] at hc; cases hc)]
      exact y4
    · rw [hevs, lrat_append]
      refine ⟨h5, ?_, trivial⟩
      show (Spec.LratCheck.Db.clause _ _).isSome
      rw [x4]; rfl
    · rw [hafter]; exact h6
    · rw [hafter]
      show (if i = id then none else _) = _
      rw [if_neg (by omega)]
      exact h7 i hi

theorem Loaded.prep {F P : List (List Lit)} {env : Env} {s s' : St} {st : ProofStep} (hst : Prep st) (h : Loaded F P s)
    (hr : Rep True s') (he : StepEff env st s s') : Loaded F P s' := by
  unfold StepEff at he
  split at he
  · exact absurd hst id
  · exact absurd hst id
  · exact absurd hst id
  · rename_i c proof
    obtain ⟨id, r, s1, o, hd, hw, hu, hsat, hcf, hni, -, has, hout, hpid, hpl, hcc, ho, hq⟩ := he.run
    have e1 : s'.nextId = s.nextId := hq.nextId.trans hni
    have e2 : s'.unsat = s.unsat := hq.unsat.trans hsat
    have e3 : s'.out = s.out ++ o := by rw [hq.out, hout]
    cases proof with
    | redundant => exact absurd hst (by simp [Prep])
    | simplified => exact absurd hst (by simp [Prep])
    | satisfied =>
      cases r with
      | unchanged =>
        have ho : o = [] := ho
        subst ho
        exact h.same (by rw [e3]; simp) hr e1 e2
      | newlyRedundant =>
        obtain ⟨l, hl, sid, hs, rfl⟩ := ho
        exact h.one e3 hr (by simp [CheckedStep.isInput]) (by simp) e1 e2
      | removed =>
        obtain ⟨l, hl, sid, hs, rfl⟩ := ho
        exact h.one e3 hr (by simp [CheckedStep.isInput]) (by simp) e1 e2
  · exact absurd hst id
  · exact absurd hst id
  · obtain ⟨s0, hq, hq'⟩ := he
    exact h.one (by rw [hq'.out]; show s0.out ++ _ = _; rw [hq.out0]) hr (by simp [CheckedStep.isInput]) (by simp)
      (hq'.nextId.trans hq.nextId) (hq'.unsat.trans hq.unsat)
  · exact absurd hst id
  · obtain ⟨o, hq, ho⟩ := he
    rcases ho with rfl | ⟨v, u, rfl⟩
    · exact h.same hq.out0 hr hq.nextId hq.unsat
    · exact h.one hq.out hr (by simp [CheckedStep.isInput]) (by simp) hq.nextId hq.unsat

/-- The clauses and steps before the first `solve`. -/
theorem loaded_live {env : Env} (hproc : env.hasProc = true) {F : List (List Lit)} (hc : ¬ Clashing F.dropLast) : ∀ {L P s s' G A}, F = P ++ addsOf L →
    (∀ st ∈ L, Prep st ∨ ∃ c, st = .addClause c) → Core G s → SSorted s.prevLits → s.assumptions = (copyCanonical A).1 → Loaded F P s →
    execs env (L.map liveOp) s = .ok () s' → Loaded F F s' := by
  intro L
  induction L with
  | nil =>
    intro P s s' G A hF _ _ _ _ h he
    have he : (EStateM.Result.ok () s : EStateM.Result Err St Unit) = .ok () s' := he
    simp only [EStateM.Result.ok.injEq, true_and] at he
    subst he
    rw [show addsOf [] = [] from rfl, List.append_nil] at hF
    rw [hF] at h ⊢
    exact h
  | cons st L ih =>
    intro P s s' G A hF hL hco hsort ha h he
    obtain ⟨s1, h1, h2⟩ := execs_ok he
    have hL' : ∀ st ∈ L, Prep st ∨ ∃ c, st = .addClause c := fun x hx => hL x (by simp [hx])
    rcases hL st (by simp) with hp | ⟨c, rfl⟩
    · have e1 : liveOp st = .step st := by cases st <;> first | rfl | exact absurd hp id
      have e2 : addsOf (st :: L) = addsOf L := by cases st <;> first | rfl | exact absurd hp id
      rw [e1] at h1
      rw [e2] at hF
      have heff : StepEff env st { s with step := s.step + 1 } s1 := op_ok hco.pre h1
      have hrep : Rep True s := by obtain ⟨d, h1, h2, -⟩ := h.ex; exact ⟨d, h1, h2⟩
      have hq := quiet_step hco.pre
      have hr := Rep.step (strict := True) hproc (hq.toSame.pre hco.pre) hsort
        (fun _ v hv => by subst hv; exact absurd hp id)
        (by simp only; rw [ha]; exact canonical_ssorted _) (hrep.quiet hq) heff
      have hs := sorted_step (s := { s with step := s.step + 1 }) hsort heff
      have ha' := StepEff.asm (s := { s with step := s.step + 1 }) heff
      have hc1 := hco.op (op := .step st) heff
      have hl := (h.same (s' := { s with step := s.step + 1 }) rfl (hrep.quiet hq) rfl rfl).prep hp hr heff
      cases st <;> first | exact ih hF hL' hc1 hs (ha'.trans ha) hl h2 | exact ih hF hL' hc1 hs ha' hl h2
    · have h1 : (Op.add c).exec env s = .ok () s1 := h1
      have heff : AddEff c s s1 := op_ok hco.pre h1
      have hF : F = P ++ c :: addsOf L := hF
      exact ih (P := P ++ [c]) (by rw [hF]; simp) hL' (hco.op (env := env) (op := .add c) heff) (by rw [AddEff.prevLits heff]; exact hsort) ((AddEff.asm heff).trans ha)
        (h.add hF hc heff) h2

theorem rep_conflicts {env : Env} {s s' : St} (h : Rep True s) (h4 : processUnitConflicts env s = .ok () s') :
    ∃ d, Replay.Run True {} s'.out d := by
  obtain ⟨d, hd, hl⟩ := h
  have h4 : (match s.unitConflict with
    | some (a, b) => emit env (.atClause s.nextId false [] [a, b])
    | none => pure ()) s = .ok () s' := h4
  cases hc : s.unitConflict with
  | none =>
    rw [hc] at h4
    have h4 : (EStateM.Result.ok () s : EStateM.Result Err St Unit) = .ok () s' := h4
    simp only [EStateM.Result.ok.injEq, true_and] at h4
    subst h4
    exact ⟨d, hd⟩
  | some x =>
    obtain ⟨a, b⟩ := x
    rw [hc] at h4
    simp only at h4
    have hw : wp (emit env (.atClause s.nextId false [] [a, b]))
        (fun _ s' => s'.out = s.out ++ [.atClause s.nextId false [] [a, b]]) (fun _ _ => True) s :=
      wp_emit (fun _ => rfl) (fun _ _ _ => trivial)
    have hout := wp_ok hw h4
    obtain ⟨l, h5, h6⟩ := hl.conf trivial a b hc
    refine ⟨_, run_snoc hd hout (.rup d _ _ _ _ (Nat.le_of_eq hl.next) ?_)⟩
    refine ⟨[[l.neg], [l]], .cons h5 (.cons h6 .nil), ?_⟩
    exact ⟨l.neg, by simp, by simp, by simp, by simp, by simp [RupChain]⟩

/-- Everything the checker has told its processors during a first `solve`. -/
theorem live_valid {env : Env} (hproc : env.hasProc = true) {L Q : List ProofStep} {s0 s1 s2 : St} (hc : ¬ Clashing (addsOf L).dropLast)
    (hL : ∀ st ∈ L, Prep st ∨ ∃ c, st = .addClause c) (hQ : ∀ c, ProofStep.addClause c ∉ Q) (hQ' : ∀ v, ProofStep.deleteVar v ∉ Q)
    (h0 : execs env (L.map liveOp) {} = .ok () s0) (h1 : execs env (Q.map .step) s0 = .ok () s1) (h2 : processUnitConflicts env s1 = .ok () s2) :
    Valid (start ((addsOf L).map ints)) (evs s2.out) := by
  have hl := loaded_live (P := []) (A := []) hproc hc (List.nil_append _).symm hL Core.init (by simp [SSorted]) (by decide) (Loaded.init _) h0
  have hnd : NoDeleteVar (L.map liveOp ++ Q.map Op.step) := by
    intro v hv
    rcases List.mem_append.1 hv with hv | hv
    · obtain ⟨st, k1, k2⟩ := List.mem_map.1 hv
      rcases hL st k1 with k | ⟨c, rfl⟩
      · cases st <;> first | exact k | cases k2
      · cases k2
    · obtain ⟨st, k1, k2⟩ := List.mem_map.1 hv
      cases k2
      exact hQ' v k1
  have hrep := rep_execs (A := []) (strict := True) hproc Core.init (by simp [SSorted]) (by decide) (fun _ => hnd) (Rep.init True)
    (execs_append.2 ⟨s0, h0, h1⟩)
  obtain ⟨d, hd⟩ := rep_conflicts hrep h2
  have hran := ran_execs (Ran.init (env := env)) h0
  obtain ⟨o, ho, hm⟩ := (mute_execs hran hQ h1).trans (mute_conflicts h2)
  obtain ⟨⟨d0, q1, q2, q3⟩, q4, q5, q6, q7, -⟩ := hl
  rw [ho] at hd ⊢
  obtain ⟨d1, r1, r2⟩ := run_split hd
  have e := run_det r1 q1
  subst e
  rw [evs_append, lrat_append]
  refine ⟨q5, (Sim.run ⟨fun i c hi => ?_, ?_⟩ r2 hm).1⟩
  · obtain ⟨-, c0, -, x3, x4⟩ := q3 i c hi
    refine ⟨_, x4, fun x => ?_⟩
    constructor
    · intro hx
      obtain ⟨l, hl, rfl⟩ := of_mem_ints hx
      exact mem_ints.2 ((x3 l).1 hl)
    · intro hx
      obtain ⟨l, hl, rfl⟩ := of_mem_ints hx
      exact mem_ints.2 ((x3 l).2 hl)
  · rw [q6, q2.next, q4]

/-! ### The order of literals does not matter -/

/-- The same clauses, up to the order and repetition of literals. -/
def Alike (a b : Option (List Int)) : Prop :=
  match a, b with
  | none, none => True
  | some c, some d => ∀ x, x ∈ c ↔ x ∈ d
  | _, _ => False

theorem hints_alike {f g : Nat → Option (List Int)} (h : ∀ i, Alike (f i) (g i)) : ∀ {ids known}, Hints f known ids → Hints g known ids := by
  have one : ∀ {i c}, f i = some c → ∃ d, g i = some d ∧ ∀ x, x ∈ c ↔ x ∈ d := by
    intro i c hi
    have := h i
    rw [hi] at this
    cases hg : g i with
    | none => rw [hg] at this; exact absurd this id
    | some d => rw [hg] at this; exact ⟨d, rfl, this⟩
  intro ids
  induction ids with
  | nil => intro known h; exact h
  | cons i ids ih =>
    intro known hh
    cases ids with
    | nil =>
      obtain ⟨c, h1, h2⟩ := hh
      obtain ⟨d, k1, k2⟩ := one h1
      exact ⟨d, k1, fun l hl => h2 l ((k2 l).2 hl)⟩
    | cons j ids =>
      obtain ⟨c, h1, l, h2, h3, h4, h5, h6⟩ := hh
      obtain ⟨d, k1, k2⟩ := one h1
      exact ⟨d, k1, l, (k2 l).1 h2, h3, h4, fun m hm => h5 m ((k2 m).2 hm), ih h6⟩

theorem valid_alike : ∀ {es : List Event} {p q : Spec.LratCheck.Db}, (∀ i, Alike (p.clause i) (q.clause i)) → p.next = q.next → Valid p es → Valid q es := by
  intro es
  induction es with
  | nil => intro p q _ _ _; trivial
  | cons e es ih =>
    intro p q h hn hv
    refine ⟨?_, ih (p := Spec.LratCheck.step p e) (fun i => ?_) ?_ hv.2⟩
    · cases e with
      | add id lits hints => exact ⟨hn ▸ hv.1.1, hints_alike h hv.1.2⟩
      | del id =>
        have h1 : (p.clause id).isSome := hv.1
        have h2 := h id
        show (q.clause id).isSome
        cases hq : q.clause id with
        | some _ => rfl
        | none =>
          obtain ⟨c, hc⟩ := Option.isSome_iff_exists.1 h1
          rw [hc, hq] at h2
          exact False.elim h2
    · cases e with
      | add id lits hints =>
        show Alike (if i = id then _ else _) (if i = id then _ else _)
        split
        · exact fun _ => .rfl
        · exact h i
      | del id =>
        show Alike (if i = id then _ else _) (if i = id then _ else _)
        split
        · trivial
        · exact h i
    · cases e with
      | add id lits hints => rfl
      | del id => exact hn

theorem start_alike {F G : List (List Lit)} (h : List.Forall₂ (fun c d => copyCanonical c = copyCanonical d) F G) (i : Nat) :
    Alike ((start (F.map ints)).clause i) ((start (G.map ints)).clause i) := by
  show Alike ((F.map ints)[i]?) ((G.map ints)[i]?)
  induction h generalizing i with
  | nil => simp [Alike]
  | @cons c d F G hcd _ ih =>
    cases i with
    | succ i => simpa using ih i
    | zero =>
      simp only [List.map_cons, List.getElem?_cons_zero]
      intro x
      have key : ∀ {c d : List Lit}, copyCanonical c = copyCanonical d → x ∈ ints c → x ∈ ints d := by
        intro c d hcd hx
        obtain ⟨l, hl, rfl⟩ := of_mem_ints hx
        exact mem_ints.2 (mem_canonical.1 (hcd ▸ mem_canonical.2 hl))
      exact ⟨key hcd, key hcd.symm⟩

end Varisat.Checker
