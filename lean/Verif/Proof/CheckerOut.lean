import Verif.Proof.CheckerReplay
import Verif.Proof.CheckerFrame
import Verif.Props.C11_ProofFormat
/-! Soundness of emitted steps, and the proof loop as a history of calls. -/
namespace Varisat.Checker

/-- What an emitted step claims about the formula. -/
def StepOk (F : List (List Lit)) : CheckedStep → Prop
  | .atClause _ _ c _ => Entails F c
  | .failedAssumptions core _ => UnsatUnder F core
  | _ => True

theorem StepOk.mono {F G st} (h : ∀ c ∈ F, c ∈ G) (hs : StepOk F st) : StepOk G st := by
  cases st <;> try trivial
  · exact entails_mono h hs
  · exact fun a ha => hs a fun d hd => ha d (h d hd)

def OutOk (F : List (List Lit)) (s : St) : Prop := ∀ st ∈ s.out, StepOk F st

theorem OutOk.append {F s s' o} (h : OutOk F s) (ho : s'.out = s.out ++ o) (hs : ∀ st ∈ o, StepOk F st) :
    OutOk F s' := by
  intro st hst
  rw [ho] at hst
  rcases List.mem_append.1 hst with hst | hst
  · exact h st hst
  · exact hs st hst

theorem OutOk.quiet {F s s'} (h : OutOk F s) (hq : Quiet s [] s') : OutOk F s' :=
  h.append hq.out (by simp)

theorem OutOk.add {F s s' c} (h : OutOk F s) (he : AddEff c s s') : OutOk F s' := by
  cases he with
  | skipped _ e => rw [e]; exact h
  | taut s1 _ _ hq hb => exact h.append (hb.out.trans hq.out) (by simp [StepOk])
  | new s0 s1 id _ _ hq hst hq1 =>
    exact (h.quiet hq).append (by rw [hq1.out, hst.out]) (by simp [StepOk])
  | irred s0 s1 s2 id _ _ hq hst hq1 hb =>
    exact (h.quiet hq).append (by rw [hb.out, hq1.out, hst.out]) (by simp [StepOk])
  | dup s0 s1 s2 id _ _ hq hst hq1 hb =>
    exact (h.quiet hq).append (by rw [hb.out, hq1.out, hst.out]) (by simp [StepOk])

theorem OutOk.units {F env ls s s'} (hc : Core F s) (h : OutOk F s) (he : UnitsEff env ls s s') :
    OutOk F s' := by
  induction he with
  | nil s hw => exact h
  | cons l ls s s0 s1 s2 s' id res ids hq hr htr hst hq2 tail ih =>
    have hl := hc.refuted hr
    refine ih (((hc.same hq.toSame).stored hl hst).same hq2.toSame) ?_
    refine (h.quiet hq).append (by rw [hq2.out, hst.out]) ?_
    cases res <;> simp [StepOk]
    exact hl

theorem Core.failed {F env core s s'} (hc : Core F s) (he : FailedEff env core s s') :
    UnsatUnder F (copyCanonical core).1 := by
  obtain ⟨ids, hq, hr⟩ := he.run
  intro a ha hall
  rcases hr with ⟨ht, -⟩ | ⟨-, ids', hr, -⟩
  · obtain ⟨l, hl, hl'⟩ := (canonical_taut _).1 ht
    have h1 := hall l (mem_canonical.2 hl)
    have h2 := hall _ (mem_canonical.2 hl')
    exact (Lit.holds_neg a l).1 h2 h1
  · obtain ⟨m, hm, hh⟩ := hc.refuted hr a ha
    obtain ⟨l, hl, rfl⟩ := List.mem_map.1 hm
    exact (Lit.holds_neg a l).1 hh (hall l hl)

theorem OutOk.step {F env s s' st} (hc : Core F s) (h : OutOk F s) (he : StepEff env st s s') :
    OutOk F s' := by
  unfold StepEff at he
  split at he
  · exact h.add he
  · have hent := (hc.at he).2
    obtain ⟨s0, s1, s2, id, res, ids, hq, hr, htr, hst, hs2, hq2⟩ := he.run
    have hout : s2.out = s0.out := by rw [hs2, ← hst.out]; split <;> rfl
    refine (h.quiet hq).append (by rw [hq2.out, hout]) ?_
    cases res <;> simp [StepOk]
    exact entails_canonical.2 hent
  · exact h.units hc he
  · obtain ⟨id, r, s1, o, hd, hw, hu, hsat, hcf, hni, -, has, hout, hpid, hpl, hcc, ho, hq⟩ := he.run
    refine h.append (by rw [hq.out, hout]) ?_
    split at ho <;> (try subst ho) <;> simp [StepOk]
    · exact absurd ho (by simp)
    · obtain ⟨l, hl, sid, hsid, rfl⟩ := ho; simp
    · obtain ⟨sid, hsid, rfl⟩ := ho; simp
  · cases he with
    | free _ _ hq => exact h.quiet hq
    | unit id b s1 _ hu hq hq' =>
      exact h.append (by rw [hq'.out, List.append_nil]; exact hq.out) (by simp [StepOk])
  · exact h.append he.1.out (by simp [StepOk])
  · obtain ⟨s0, hq, hq'⟩ := he
    exact (h.quiet hq).append hq'.out (by simp [StepOk])
  · have hf := hc.failed he
    obtain ⟨ids, hq, hr⟩ := he.run
    refine h.append hq.out ?_
    simp only [List.mem_singleton]
    rintro st rfl
    exact hf
  · obtain ⟨o, hq, ho⟩ := he
    refine h.append hq.out ?_
    rcases ho with rfl | ⟨v, u, rfl⟩ <;> simp [StepOk]

theorem OutOk.mono {F G s} (hG : ∀ c ∈ F, c ∈ G) (h : OutOk F s) : OutOk G s :=
  fun st hst => (h st hst).mono hG

theorem OutOk.op {F env s s' op} (hc : Core F s) (h : OutOk F s) (he : OpEff env op s s') :
    OutOk (F ++ op.added) s' := by
  refine OutOk.mono (F := F) (by intro c hc; simp [hc]) ?_
  cases op with
  | add c => exact h.add he
  | step st => exact OutOk.step (hc.same (quiet_step hc.pre).toSame) (h.quiet (quiet_step hc.pre)) he

theorem StepErr.out {F s s' n w} (h : OutOk F s) (he : StepErr s (.checkFailed n w) s')
    (hw : ∀ h, w ≠ .noClauseForHash h) : OutOk F s' := by
  rcases he with h1 | ⟨k, h1⟩ | ⟨-, -, h1⟩
  · rcases h1 with h1 | h1 <;> simp at h1
  · simp only [Err.checkFailed.injEq] at h1; exact absurd h1.2 (hw k)
  · exact h.append (o := []) (by rw [h1, List.append_nil]) (by simp)

theorem OutOk.err {F env s s' op n w} (hc : Core F s) (h : OutOk F s)
    (he : OpErr env op s (.checkFailed n w) s') (hw : ∀ h, w ≠ .noClauseForHash h) : OutOk F s' := by
  cases op with
  | add c => exact he.out h hw
  | step st =>
    have hc' := hc.same (quiet_step hc.pre).toSame
    have h' := h.quiet (quiet_step hc.pre)
    unfold OpErr StepErrEff at he
    simp only at he
    split at he
    · obtain ⟨ls, sm, h1, -, h2⟩ := he
      rcases h2 with h2 | ⟨w', -, h2⟩
      · rcases h2 with h2 | h2 <;> simp at h2
      · exact h2.out (h'.units hc' h1) hw
    · exact he.out h' hw

theorem Ran.out {env F s} (h : Ran env F s) : OutOk F s := by
  induction h with
  | init => intro st hst; simp at hst
  | accept op hr he ih => exact ih.op hr.core (op_ok hr.core.pre he)
  | reject op n w hr he hw ih => exact ih.err hr.core (wp_err (op_eff env hr.core.pre op) he) hw

/-! ### Transcripts -/

theorem pres_op (env : Env) (op : Op) {s s' : St} (h : op.exec env s = .ok () s') (ht : TInv s) : TInv s' := by
  cases op with
  | add c =>
    have := pres_addClause env c s
    have h : addClause env c s = .ok () s' := h
    rw [h] at this
    exact this.tinv ht
  | step st =>
    have h : checkStep env st { s with step := s.step + 1 } = .ok () s' := h
    by_cases he : st = .end_
    · subst he
      have h : (EStateM.Result.ok () { s with
        step := s.step + 1
        ended := true } : EStateM.Result Err St Unit) = .ok () s' := h
      simp only [EStateM.Result.ok.injEq, true_and] at h
      subst h; exact ht
    · have := pres_step env st he { s with step := s.step + 1 }
      rw [h] at this
      exact this.tinv ht

theorem tinv_execs {env ops} : ∀ {s s'}, TInv s → execs env ops s = .ok () s' → TInv s' := by
  induction ops with
  | nil =>
    intro s s' h he
    have he : (EStateM.Result.ok () s : EStateM.Result Err St Unit) = .ok () s' := he
    simp only [EStateM.Result.ok.injEq, true_and] at he
    subst he; exact h
  | cons op ops ih =>
    intro s s' h he
    obtain ⟨s1, h1, h2⟩ := execs_ok he
    exact ih (pres_op env op h1 h) h2

/-! ### The proof loop -/

theorem execs_append {env ops ops'} : ∀ {s s'}, execs env (ops ++ ops') s = .ok () s' ↔
    ∃ s1, execs env ops s = .ok () s1 ∧ execs env ops' s1 = .ok () s' := by
  induction ops with
  | nil =>
    intro s s'
    constructor
    · intro h; exact ⟨s, rfl, h⟩
    · rintro ⟨s1, h1, h2⟩
      have h1 : (EStateM.Result.ok () s : EStateM.Result Err St Unit) = .ok () s1 := h1
      simp only [EStateM.Result.ok.injEq, true_and] at h1
      subst h1; exact h2
  | cons op ops ih =>
    intro s s'
    have unf : ∀ (l : List Op) t, execs env (op :: l) t =
        match op.exec env t with
        | .ok _ t1 => execs env l t1
        | .error e t1 => .error e t1 := by
      intro l t
      show EStateM.bind (op.exec env) (fun _ => execs env l) t = _
      unfold EStateM.bind
      cases op.exec env t <;> rfl
    rw [List.cons_append, unf, unf]
    cases op.exec env s with
    | ok a s1 => exact ih
    | error e s1 => simp

/-- An accepted run of the loop reads steps up to the first `End` and executes exactly these. -/
theorem checkLoop_ok (env : Env) (fill : Nat → Nat) : ∀ (n : Nat) (bs : Bytes) (s s' : St), bs.length ≤ n →
    s.ended = false → checkLoop env fill bs s = .ok () s' →
    ∃ sts rest, readSteps fill (sts.length + 1) bs = .ok (sts ++ [.end_], rest) ∧
      ProofStep.end_ ∉ sts ∧ execs env ((sts ++ [ProofStep.end_]).map Op.step) s = .ok () s' := by
  intro n
  induction n with
  | zero =>
    intro bs s s' hn he h
    rw [checkLoop] at h
    rw [if_neg (by rw [he]; simp)] at h
    simp only at h
    split at h
    · simp at h
    · simp at h
    · rename_i st rest hp
      have := Fmt.parseStep_progress hp
      omega
  | succ n ih =>
    intro bs s s' hn he h
    rw [checkLoop] at h
    rw [if_neg (by rw [he]; simp)] at h
    simp only at h
    split at h
    · simp at h
    · simp at h
    · rename_i st rest hp
      have hlt := Fmt.parseStep_progress hp
      split at h
      · simp at h
      · rename_i s1 hs1
        have hx : Op.exec env (.step st) s = .ok () s1 := hs1
        by_cases hend : st = .end_
        · subst hend
          have hs1 : (EStateM.Result.ok () { s with
            ended := true
            step := s.step + 1 } : EStateM.Result Err St Unit) = .ok () s1 := hs1
          simp only [EStateM.Result.ok.injEq, true_and] at hs1
          rw [checkLoop] at h
          rw [if_pos (by rw [← hs1])] at h
          simp only [EStateM.Result.ok.injEq, true_and] at h
          subst h
          refine ⟨[], rest, ?_, by simp, ?_⟩
          · simp [readSteps, hp]
          · show execs env [Op.step .end_] s = _
            have := (execs_append (env := env) (ops := [Op.step .end_]) (ops' := []) (s := s) (s' := s1))
            show EStateM.bind (Op.exec env (.step .end_)) (fun _ => execs env []) s = _
            unfold EStateM.bind
            rw [hx]; rfl
        · have hfr := pres_step env st hend { s with step := s.step + 1 }
          rw [hs1] at hfr
          have he1 : s1.ended = false := by rw [hfr.ended]; exact he
          obtain ⟨sts, rest', h1, h2, h3⟩ := ih rest s1 s' (by omega) he1 h
          refine ⟨st :: sts, rest', ?_, ?_, ?_⟩
          · simp only [List.length_cons]
            rw [readSteps]
            simp only [hp]
            rw [h1]
            simp
          · simp only [List.mem_cons, not_or]
            exact ⟨fun h => hend h.symm, h2⟩
          · show EStateM.bind (Op.exec env (.step st)) (fun _ => execs env _) s = _
            unfold EStateM.bind
            rw [hx]; exact h3

/-- Reading steps does not look past them. -/
theorem readSteps_mono (fill : Nat → Nat) : ∀ (n : Nat) (bs : Bytes) (sts rest), readSteps fill n bs = .ok (sts, rest) →
    ∀ ext, readSteps fill n (bs ++ ext) = .ok (sts, rest ++ ext) := by
  intro n
  induction n with
  | zero => intro bs sts rest h ext; simp only [readSteps, Except.ok.injEq, Prod.mk.injEq] at h ⊢; simp [h]
  | succ n ih =>
    intro bs sts rest h ext
    rw [readSteps] at h ⊢
    cases hp : Fmt.parseStep fill bs with
    | error e => rw [hp] at h; simp at h
    | ok x =>
      obtain ⟨st, r⟩ := x
      rw [hp] at h
      rw [(Fmt.good_parseStep fill).mono _ _ _ hp ext]
      simp only at h ⊢
      cases hr : readSteps fill n r with
      | error e => rw [hr] at h; simp at h
      | ok y =>
        obtain ⟨ss, r'⟩ := y
        rw [hr] at h
        rw [ih _ _ _ hr ext]
        simp only [Except.ok.injEq, Prod.mk.injEq] at h ⊢
        exact ⟨h.1, by rw [h.2]⟩

/-- The first `End` is determined by the bytes. -/
theorem readSteps_end_unique (fill : Nat → Nat) : ∀ (sts sts' : List ProofStep) (bs rest rest' : Bytes),
    ProofStep.end_ ∉ sts → ProofStep.end_ ∉ sts' →
    readSteps fill (sts.length + 1) bs = .ok (sts ++ [.end_], rest) →
    readSteps fill (sts'.length + 1) bs = .ok (sts' ++ [.end_], rest') → sts = sts' ∧ rest = rest' := by
  have step : ∀ (n : Nat) (bs rest : Bytes) (st : ProofStep) (sts : List ProofStep),
      readSteps fill (n + 1) bs = .ok (st :: sts, rest) →
      ∃ r, Fmt.parseStep fill bs = .ok (st, r) ∧ readSteps fill n r = .ok (sts, rest) := by
    intro n bs rest st sts h
    rw [readSteps] at h
    cases hp : Fmt.parseStep fill bs with
    | error e => rw [hp] at h; simp at h
    | ok x =>
      obtain ⟨st', r⟩ := x
      rw [hp] at h
      simp only at h
      cases hr : readSteps fill n r with
      | error e => rw [hr] at h; simp at h
      | ok y =>
        obtain ⟨ss, r'⟩ := y
        rw [hr] at h
        simp only [Except.ok.injEq, Prod.mk.injEq, List.cons.injEq] at h
        obtain ⟨⟨rfl, rfl⟩, rfl⟩ := h
        exact ⟨r, rfl, hr⟩
  intro sts
  induction sts with
  | nil =>
    intro sts' bs rest rest' _ h' h1 h2
    obtain ⟨r, hp, hr⟩ := step 0 _ _ _ _ h1
    cases sts' with
    | nil =>
      obtain ⟨r', hp', hr'⟩ := step 0 _ _ _ _ h2
      rw [hp] at hp'
      simp only [Except.ok.injEq, Prod.mk.injEq, true_and] at hp'
      subst hp'
      simp only [readSteps, Except.ok.injEq, Prod.mk.injEq, true_and] at hr hr'
      exact ⟨rfl, by rw [← hr, ← hr']⟩
    | cons t ts =>
      obtain ⟨r', hp', hr'⟩ := step _ _ _ _ _ h2
      rw [hp] at hp'
      simp only [Except.ok.injEq, Prod.mk.injEq] at hp'
      exact absurd (by rw [hp'.1]; simp) h'
  | cons st sts ih =>
    intro sts' bs rest rest' hn h' h1 h2
    obtain ⟨r, hp, hr⟩ := step _ _ _ _ _ h1
    cases sts' with
    | nil =>
      obtain ⟨r', hp', hr'⟩ := step 0 _ _ _ _ h2
      rw [hp] at hp'
      simp only [Except.ok.injEq, Prod.mk.injEq] at hp'
      exact absurd (by rw [hp'.1]; simp) hn
    | cons t ts =>
      obtain ⟨r', hp', hr'⟩ := step _ _ _ _ _ h2
      rw [hp] at hp'
      simp only [Except.ok.injEq, Prod.mk.injEq] at hp'
      obtain ⟨rfl, rfl⟩ := hp'
      obtain ⟨h3, h4⟩ := ih ts r rest rest' (fun h => hn (List.mem_cons_of_mem _ h))
        (fun h => h' (List.mem_cons_of_mem _ h)) hr hr'
      exact ⟨by rw [h3], h4⟩

theorem checkProof_ok {env : Env} {fill : Nat → Nat} {bs : Bytes} {s s' : St} (he : s.ended = false)
    (h : checkProof env fill bs s = .ok () s') :
    ∃ sts rest s1, readSteps fill (sts.length + 1) bs = .ok (sts ++ [.end_], rest) ∧
      ProofStep.end_ ∉ sts ∧ execs env ((sts ++ [ProofStep.end_]).map Op.step) s = .ok () s1 ∧
      processUnitConflicts env s1 = .ok () s' := by
  have h : EStateM.bind (checkLoop env fill bs) (fun _ => processUnitConflicts env) s = .ok () s' := h
  unfold EStateM.bind at h
  cases hx : checkLoop env fill bs s with
  | error e s1 => rw [hx] at h; simp at h
  | ok a s1 =>
    rw [hx] at h
    obtain ⟨sts, rest, h1, h2, h3⟩ := checkLoop_ok env fill _ bs s s1 (Nat.le_refl _) he hx
    exact ⟨sts, rest, s1, h1, h2, h3, h⟩

end Varisat.Checker
