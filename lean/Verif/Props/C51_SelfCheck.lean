import Verif.Proof.Solver.OneShot
import Verif.Proof.Solver.NoAsm
import Verif.Proof.Solver.SampleJoint
import Verif.Props.C28_FailedCore
import Verif.Proof.LenientOut
/-!
# C51: the solver passes its own checks

Self checking and proof output (`enable_self_checking`, `write_proof`) look at the steps of the solver but do not
change what it does: every call that works without them works with them and returns the same, unless a proof file could
not be written. An answer "unsatisfiable" has been checked: the proof processors have been told of the empty clause.

`Exec s h` are all histories `h` of calls on a solver without proof output and `Joint env f check s o h` those with
proof output in format `f` and self checking if `check`; neither contains panics or calls that returned an error.
`Accepting env.chk` says that the processors of the user report no error.

Partial: it is false after a failed core of one literal, when a second failed core is found (the core may be wrong,
`C28.wrong_core`, and is then rejected by the checker, `C51.rejects`); and it is not shown for 2^32 or more solver
variables or clauses, more than the types of the code can hold. DRAT output panics on assumptions and on clauses added
after `solve` (`C51.drat_assume`, `C51.drat_incremental`), so that for it `OneShot` histories are required.
-/
namespace Varisat.Solver
open Api (Hist OneShot)
open Out (IsDrat)
open Checker (Accepting)
open Sample (cl asm see_joint penv penv_accepting)

variable {α : Type} [LinearOrder α] {env : Out.Env} {f : Option Out.Format} {check : Bool}

/-- The number of solver variables and, for a proof with hashes, the number of clauses fit into 32 bits. -/
def C51.Small (f : Option Out.Format) (s : St α) : Prop :=
  s.vars.gfs.len < 2 ^ 32 ∧ (f = some .varisat → ∀ M, M <+: s.log → netClauses M ≤ 2 ^ 32)

theorem C51.limits {s : St α} (hs : C51.Small f s) (hn : ¬ C28.AfterSingle s.log) : Limits f s := by
  refine ⟨hs.1, hs.2, ?_⟩
  rintro core hs L1 L2 hL ⟨l, hs', hm⟩
  obtain ⟨A, B, rfl⟩ := List.append_of_mem hm
  exact hn ⟨A, B ++ .failedAssumptions core hs :: L2, l, hs', by rw [hL]; simp, core, hs, by simp⟩

/-- One call: if it works without proof output, it works with it and returns the same; an error is one of writing the
proof file. -/
theorem C51.self_check_partial (ha : Accepting env.chk) {s s' : St α} {o : Out.Sess} {h : Hist} (x : Joint env f check s o h)
    {e : Env α} (he : e.Ok) {op : Op} {r : List Nat} (hstep : s.step e op = .ok (s', r)) (hs : C51.Small f s')
    (hn : ¬ C28.AfterSingle s'.log) (hd : IsDrat f → OneShot (h ++ [(op.call, r)])) :
    ∃ o' er, s.joint e env op o = .ok (s', o', r, er) ∧ (er = none ∨ er = some .io ∧ ∃ n, env.io n = false) := by
  have l := C51.limits hs hn
  obtain ⟨i1, i2, s0, -, i4, -⟩ := x.follows ha (l.of_step x.exec hstep)
  rcases joint_step ha x.exec he hstep l i4 i1 with ⟨-, hf, L, hL, st, hst, hu⟩ | ⟨o', er, e1, e2, -⟩
  · exact absurd hu (oneShot_writable x.exec he hstep (hd hf) i2 hL st hst)
  refine ⟨o', er, e1, ?_⟩
  cases er with
  | none => exact .inl rfl
  | some y => obtain ⟨rfl, h⟩ := e2 y rfl; exact .inr ⟨rfl, h⟩

/-- Whole histories: those with proof output and self checking are exactly those without, if writing never fails. -/
theorem C51.transparent_partial (ha : Accepting env.chk) (hio : ∀ n, env.io n = true) {s : St α} {h : Hist} (hs : C51.Small f s)
    (hn : ¬ C28.AfterSingle s.log) (hd : IsDrat f → OneShot h) : Exec s h ↔ ∃ o, Joint env f check s o h := by
  refine ⟨fun x => ?_, fun ⟨o, x⟩ => x.exec⟩
  have l := C51.limits hs hn
  clear hs hn
  induction x with
  | new e => exact ⟨_, .new e⟩
  | @call s s' h op r e x he hstep ih =>
    obtain ⟨o, j⟩ := ih (fun hf => (hd hf).left) (l.of_step x hstep)
    obtain ⟨i1, i2, s0, -, i4, -⟩ := j.follows ha (l.of_step x hstep)
    rcases joint_step ha x he hstep l i4 i1 with ⟨-, hf, L, hL, st, hst, hu⟩ | ⟨o', er, e1, e2, -⟩
    · exact absurd hu (oneShot_writable x he hstep (hd hf) i2 hL st hst)
    cases er with
    | none => exact ⟨o', .call e j he e1⟩
    | some y => obtain ⟨-, n, hf⟩ := e2 y rfl; rw [hio] at hf; cases hf

/-- Without assumptions there is no exception. -/
theorem C51.no_assumptions (ha : Accepting env.chk) (hio : ∀ n, env.io n = true) {s : St α} {h : Hist} (hs : C51.Small f s)
    (hn : NoAsm h) (hd : IsDrat f → OneShot h) : Exec s h ↔ ∃ o, Joint env f check s o h := by
  refine ⟨fun x => (C51.transparent_partial ha hio hs ?_ hd).1 x, fun ⟨o, x⟩ => x.exec⟩
  rintro ⟨L1, L2, l, hx, hL, -⟩
  have := x.noFail hn [l] hx (by rw [hL]; simp)
  cases this

/-- One call with processors that may fail: the error is returned by the next `solve`, there is no panic. -/
theorem C51.any_processor_partial {s s' : St α} {o : Out.Sess} {h : Hist} (x : Joint env f check s o h)
    {e : Env α} (he : e.Ok) {op : Op} {r : List Nat} (hstep : s.step e op = .ok (s', r)) (hs : C51.Small f s')
    (hn : ¬ C28.AfterSingle s'.log) (hd : IsDrat f → OneShot (h ++ [(op.call, r)])) :
    ∃ o' er, s.joint e env op o = .ok (s', o', r, er) ∧
      (er = none ∨ er = some .io ∧ (∃ n, env.io n = false) ∨ er = some .processor ∧ env.chk.Fails) := by
  have key : ∀ {o' : Out.Sess} {er : Option Out.SErr}, Gone op o' er → er = none ∨ er = some .processor := by
    intro o' er hg
    cases op <;> first | exact .inl hg.1 | exact .inr hg.1
  rcases x.near with x' | ⟨hdead, hf⟩
  · rcases joint_near (e := e) (env := env) s o op with k | ⟨⟨s1, r1, o1, er, k1, k2, k3⟩, hf⟩
    · obtain ⟨o', er, q1, q2⟩ := C51.self_check_partial env.chk.lenient_accepting x' he hstep hs hn hd
      exact ⟨o', er, k.trans q1, q2.elim .inl fun q => .inr (.inl q)⟩
    · rw [hstep] at k1
      cases k1
      exact ⟨o1, er, k2, (key k3).elim .inl fun q => .inr (.inr ⟨q, hf⟩)⟩
  · obtain ⟨o1, er, k2, k3⟩ := joint_gone (env := env) hdead x.valid.1 hstep
    exact ⟨o1, er, k2, (key k3).elim .inl fun q => .inr (.inr ⟨q, hf⟩)⟩

/-- An answer "unsatisfiable" without assumptions was checked: the checker knows that the formula is unsatisfiable and
has told its processors of the empty clause. -/
theorem C51.unsat_checked {s s' : St α} {o o' : Out.Sess} {h : Hist} (x : Joint env f true s o h)
    {e : Env α} (he : e.Ok) {n : Nat} (hj : s.joint e env (.solve n) o = .ok (s', o', [0], none)) (hs : C51.Small f s')
    (hn : NoAsm h) :
    ∃ K, o'.proof.checker = some K ∧ K.unsat = true ∧ Checker.Refutes K.out := by
  have ha := env.chk.lenient_accepting
  obtain ⟨x, hj⟩ := x.lenient_of_answer hj
  have hstep := St.step_of_joint hj
  have hn' : NoAsm (h ++ [(Op.call (.solve n), [0])]) := by
    intro y hy ls hl
    rcases List.mem_append.1 hy with hy | hy
    · exact hn y hy ls hl
    · rw [List.mem_singleton.1 hy] at hl; cases hl
  have xe : Exec s' (h ++ [(Op.call (.solve n), [0])]) := .call e x.exec he hstep
  have l : Limits f s' := ⟨hs.1, hs.2, xe.fine_of_noAsm hn'⟩
  obtain ⟨i1, -, s0, -, i4, -⟩ := x.follows ha (l.of_step x.exec hstep)
  rcases joint_step ha x.exec he hstep l i4 i1 with ⟨e1, -⟩ | ⟨o1, er, e1, -, -, e3, -⟩
  · rw [hj] at e1; cases e1
  rw [hj] at e1
  obtain ⟨-, rfl, -, rfl⟩ : s' = s' ∧ o' = o1 ∧ [0] = [0] ∧ none = er := by simpa [Except.ok.injEq, Prod.mk.injEq] using e1
  obtain ⟨-, hF, hR⟩ := e3 ⟨n, rfl⟩ rfl
  have hunsat : s'.sat = .unsat := by
    obtain ⟨a, ids, hr, hi⟩ := x.exec.inv
    obtain ⟨⟨t, b⟩, h1, h2⟩ := bind_inv (show (s.solve e n >>= fun q => pure (q.1, [if q.2 then 1 else 0])) = .ok (s', [0]) from hstep)
    cases b with
    | true => cases h2
    | false =>
      have hts : t = s' := by
        have h2 : (Except.ok (t, [0]) : Except Stop (St α × List Nat)) = .ok (s', [0]) := h2
        simpa [Except.ok.injEq, Prod.mk.injEq] using h2
      rcases hi.solve e n with k | ⟨s1, b, k, -, k1, k2, -⟩
      · rw [k] at h1; cases h1
      · rw [k] at h1
        simp only [Except.ok.injEq, Prod.mk.injEq] at h1
        obtain ⟨h4, rfl⟩ := h1
        have h5 : s1 = s' := h4.trans hts
        rw [h5] at k1 k2
        have h3 := xe.notUnder_of_noAsm hn'
        cases hq : s'.sat with
        | unknown => exact absurd hq k1
        | sat => exact absurd (k2.2 hq) (by simp)
        | unsat => rfl
        | unsatUnder => exact absurd hq h3
  obtain ⟨_, _, -, -, ht⟩ := xe.tracked l.vars
  obtain ⟨V, hV, hsim⟩ := ht.view
  have hV := hV.full l.fine
  have hk : o'.proof.checker.isSome = true := by
    refine (hF.keep ?_).2
    have hj := hj
    unfold St.joint at hj
    rw [hstep] at hj
    simp only at hj
    split at hj
    · cases hj
    · split at hj
      · cases hj
      · split at hj
        · cases hj
        · simp only [Except.ok.injEq, Prod.mk.injEq] at hj
          obtain ⟨-, rfl, -, hj⟩ := hj
          unfold Out.takeError at hj ⊢
          split at hj
          · cases hj
          · rename_i hx; rw [hx]
  obtain ⟨K, hK⟩ := Option.isSome_iff_exists.1 hk
  obtain ⟨V', hV', hsee, -, -⟩ := hF.chk K hK
  have hVV : V' = V := (Checker.shown_iff.1 hV').2.trans (Checker.shown_iff.1 hV).2.symm
  have hu : K.unsat = true := by
    rw [hsee.c.unsat, hVV]
    exact hsim.unsat.2 hunsat
  exact ⟨K, hK, hu, hR K hK hu⟩

/-- With DRAT output every call of `assume` panics, also one with no assumptions. -/
theorem C51.drat_assume (ha : Accepting env.chk) (hio : ∀ n, env.io n = true) (hf : IsDrat f) {s s' : St α} {o : Out.Sess} {h : Hist}
    (x : Joint env f check s o h) {e : Env α} (he : e.Ok) {ls : List Lit} {r : List Nat} (hstep : s.step e (.assume ls) = .ok (s', r))
    (hs : C51.Small f s') (hn : ¬ C28.AfterSingle s'.log) : s.joint e env (.assume ls) o = .error .panic := by
  have l := C51.limits hs hn
  obtain ⟨i1, i2, s0, -, i4, -⟩ := x.follows ha (l.of_step x.exec hstep)
  rcases joint_step ha x.exec he hstep l i4 i1 with ⟨e1, -⟩ | ⟨o', er, e1, e2, -, -, e4⟩
  · exact e1
  obtain ⟨-, L, -, hF⟩ := e4 (fun n h => by cases h)
  obtain ⟨M, hM, A, c, rfl, -⟩ := C58.part x.exec hstep
  refine absurd (show Drat.steps (.assumptions c) = none from rfl) (hF.known ?_ hf (by rw [hM]; simp) (by simp))
  cases hx : o'.error with
  | none => rfl
  | some y =>
    obtain ⟨-, n, hn⟩ := hF.why y hx
    rw [hio] at hn; cases hn

/-- With DRAT output adding a clause after `solve` panics, unless the clause is ignored because the formula is already
known to be unsatisfiable. -/
theorem C51.drat_incremental (ha : Accepting env.chk) (hio : ∀ n, env.io n = true) (hf : IsDrat f) {s s' : St α} {o : Out.Sess} {h : Hist}
    (x : Joint env f check s o h) {e : Env α} (he : e.Ok) {c : List Lit} {r : List Nat} (hstep : s.step e (.addClause c) = .ok (s', r))
    (hs : C51.Small f s') (hn : ¬ C28.AfterSingle s'.log) (hsol : ∃ y ∈ h, y.1 = .solve) (hu : ∀ a, Api.Abs.Run {} h a → ¬ Unsat a.clauses) :
    s.joint e env (.addClause c) o = .error .panic := by
  have l := C51.limits hs hn
  obtain ⟨i1, i2, s0, -, i4, -⟩ := x.follows ha (l.of_step x.exec hstep)
  rcases joint_step ha x.exec he hstep l i4 i1 with ⟨e1, -⟩ | ⟨o', er, e1, e2, -, -, e4⟩
  · exact e1
  obtain ⟨-, L, hL, hF⟩ := e4 (fun n h => by cases h)
  have hinv : o.invoked = true := by
    obtain ⟨y, hy, hys⟩ := hsol
    cases hq : o.invoked with
    | true => rfl
    | false => exact absurd hys (i2.1 hq y hy)
  rw [hinv] at hF
  obtain ⟨M, hM, hP⟩ := C58.part x.exec hstep
  rcases hP with ⟨A, c', B, rfl, -⟩ | ⟨-, a, hr, hua⟩
  swap
  · exact absurd hua (hu a hr)
  have he' : o'.error = none := by
    cases hx : o'.error with
    | none => rfl
    | some y =>
      obtain ⟨-, n, hn⟩ := hF.why y hx
      rw [hio] at hn; cases hn
  have hf' : IsDrat o'.proof.format := by rw [(hF.keep he').1]; exact hf
  obtain ⟨Q, q1, q2⟩ := hF.file hf'.isSome
  obtain ⟨r1, r2⟩ := hF.raw hf'
  have hne : o.error = none := by
    cases hx : o.error with
    | none => rfl
    | some y =>
      obtain ⟨-, n, hn⟩ := i4.why y hx
      rw [hio] at hn; cases hn
  obtain ⟨Q0, q3, -⟩ := i4.file (by rw [(i4.keep hne).1]; exact hf.isSome)
  have hQ : Q = Q0 ++ (A ++ .addClause c' :: B) := by
    have : s0.log ++ Q = s0.log ++ (Q0 ++ (A ++ .addClause c' :: B)) := by
      rw [← List.append_assoc, ← q3, ← hM]; exact q1.symm
    exact List.append_cancel_left this
  have := r2 (.addClause c') (by rw [r1, q2, hQ]; simp)
  cases this

open Sample in
/-- A concrete case for DRAT: after a model was found, neither `assume` nor `add_clause` can be called. -/
example : ∃ (s s1 s2 : St Nat) (o : Out.Sess) (h : Hist), Joint penv (some .drat) true s o h ∧ IsDrat (some .drat) ∧ OneShot h ∧
    s.step Sample.env (asm []) = .ok (s1, []) ∧ s.step Sample.env (cl [2]) = .ok (s2, []) ∧
    s.joint Sample.env penv (asm []) o = .error .panic ∧ s.joint Sample.env penv (cl [2]) o = .error .panic ∧
    ∃ y ∈ h, y.1 = .solve := by
  obtain ⟨s, o, rs, h1, h2⟩ := see_joint (f := some .drat) (check := true)
    (g := fun s o rs => (rs, (match s.step Sample.env (asm []) with | .ok (_, []) => true | _ => false),
      (match s.step Sample.env (cl [2]) with | .ok (_, []) => true | _ => false),
      (match s.joint Sample.env penv (asm []) o with | .error .panic => true | _ => false),
      (match s.joint Sample.env penv (cl [2]) o with | .error .panic => true | _ => false)))
    (ops := [cl [1, 2], cl [-1, 2], .solve 20])
    (x := ([[], [], [1]], true, true, true, true)) (by decide +kernel)
  simp only [Prod.mk.injEq] at h2
  obtain ⟨rfl, k1, k2, k3, k4⟩ := h2
  split at k1
  swap
  · cases k1
  rename_i s1 q1
  split at k2
  swap
  · cases k2
  rename_i s2 q2
  split at k3
  swap
  · cases k3
  split at k4
  swap
  · cases k4
  refine ⟨s, s1, s2, o, _, h1, ⟨_, rfl, by simp⟩, ⟨?_, ?_⟩, q1, q2, ‹_›, ‹_›, (.solve, [1]), by simp [Op.call], rfl⟩
  · intro x hx ls
    simp [cl, Op.call] at hx
    rcases hx with rfl | rfl | rfl <;> simp
  · simp [cl, Op.call]

open Sample in
/-- A concrete case: 1 and 2 are decided to be equal by clauses, a model is found, and the next clauses make the formula
unsatisfiable. All calls work with a proof file, self checking and a transcript; the last one refutes the formula. -/
example : ∃ (s s' : St Nat) (o : Out.Sess) (h : Hist), Joint penv (some .varisat) true s o h ∧ NoAsm h ∧ C51.Small (some .varisat) s' ∧
    ¬ C28.AfterSingle s'.log ∧ s.step Sample.env (.solve 20) = .ok (s', [0]) := by
  obtain ⟨s, o, rs, h1, h2⟩ := see_joint (f := some .varisat) (check := true)
    (g := fun s o rs => (rs, match s.step Sample.env (.solve 20) with
      | .ok (s', [0]) => decide (s'.vars.gfs.len < 2 ^ 32) && decide (s'.log.length ≤ 20) &&
        s'.log.all (fun st => match st with | .failedAssumptions _ _ => false | _ => true)
      | _ => false))
    (ops := [cl [1, -2], cl [-1, 2], cl [1, 2, 3], .solve 20, cl [-1, -2, 3], cl [-3, 1], cl [-3, -2]])
    (x := ([[], [], [], [1], [], [], []], true)) (by decide +kernel)
  simp only [Prod.mk.injEq] at h2
  obtain ⟨rfl, h3⟩ := h2
  split at h3
  · rename_i s' hs
    simp only [Bool.and_eq_true, decide_eq_true_eq, List.all_eq_true] at h3
    refine ⟨s, s', o, _, h1, ?_, ⟨h3.1.1, fun _ M hM => ?_⟩, ?_, hs⟩
    · intro x hx ls hl
      simp [cl, Op.call] at hx
      rcases hx with rfl | rfl | rfl | rfl | rfl | rfl | rfl <;> cases hl
    · have h4 : ∀ M : List ProofStep, netClauses M ≤ M.length := by
        intro M
        induction M with
        | nil => exact Int.le_refl _
        | cons st M ih =>
          cases st <;> simp only [netClauses, List.length_cons] <;> (try split) <;> omega
      have := h4 M
      have := hM.length_le
      omega
    · rintro ⟨L1, L2, l, hx, hL, -⟩
      have := h3.2 (.failedAssumptions [l] hx) (by rw [hL]; simp)
      cases this
  · cases h3

open Sample in
/-- A concrete case for `C51.any_processor_partial`: the processor fails on the third step, when the second clause has been added.
This is reported by `solve`. -/
example : ∃ (s s' : St Nat) (o o' : Out.Sess) (h : Hist), Joint (rejecting 2) none true s o h ∧ h.length = 3 ∧ o.error = some .processor ∧
    (rejecting 2).chk.Fails ∧ s.step Sample.env (.solve 20) = .ok (s', [1]) ∧ ¬ C28.AfterSingle s'.log ∧ C51.Small none s' ∧
    s.joint Sample.env (rejecting 2) (.solve 20) o = .ok (s', o', [1], some .processor) := by
  obtain ⟨s, o, rs, h1, h2⟩ := see_with (p := rejecting 2) (f := none) (check := true)
    (g := fun s o rs => (rs, o.error, match s.step Sample.env (.solve 20) with
      | .ok (s', [1]) => decide (s'.vars.gfs.len < 2 ^ 32) && s'.log.all (fun st => match st with | .failedAssumptions _ _ => false | _ => true)
      | _ => false, match s.joint Sample.env (rejecting 2) (.solve 20) o with
      | .ok (_, _, [1], some .processor) => true
      | _ => false))
    (ops := [cl [1, -2], cl [-1, 2], cl [1, 2, 3]])
    (x := ([[], [], []], some .processor, true, true)) (by decide +kernel)
  simp only [Prod.mk.injEq] at h2
  obtain ⟨rfl, h3, h4, h5⟩ := h2
  split at h4
  · rename_i s' hs
    simp only [Bool.and_eq_true, decide_eq_true_eq, List.all_eq_true] at h4
    split at h5
    · rename_i s1 o' hj
      have hs1 := St.step_of_joint hj
      rw [hs] at hs1
      cases hs1
      refine ⟨s, s', o, o', _, h1, rfl, h3, .inl ⟨rfl, List.replicate 3 (.model []), rfl⟩, hs, ?_, ⟨h4.1, fun h => by cases h⟩, hj⟩
      rintro ⟨L1, L2, l, hx, hL, -⟩
      have := h4.2 (.failedAssumptions [l] hx) (by rw [hL]; simp)
      cases this
    · cases h5
  · cases h4

/-- The full claim is false: the run of `C28.wrong_core` finishes without self checking, but with it the last call
panics. -/
theorem C51.rejects : ∃ (s : St Nat) (o : Out.Sess) (h : Hist), Joint penv none true s o h ∧ Accepting penv.chk ∧
    (∃ s', s.step Sample.env (.solve 20) = .ok (s', [0])) ∧ s.joint Sample.env penv (.solve 20) o = .error .panic := by
  obtain ⟨s, o, rs, h1, h2⟩ := see_joint (f := none) (check := true)
    (g := fun s o _ => ((match s.step Sample.env (.solve 20) with | .ok (_, [0]) => true | _ => false),
      (match s.joint Sample.env penv (.solve 20) o with | .error .panic => true | _ => false)))
    (ops := [cl [-1], .solve 9, asm [1], .solve 9, asm [], cl [2], .solve 9, cl [-3,-4], .newVar, .newVar, asm [3,5,6,4]])
    (x := (true, true)) (by decide +kernel)
  simp only [Prod.mk.injEq] at h2
  refine ⟨s, o, _, h1, penv_accepting, ?_, ?_⟩
  · have := h2.1
    split at this
    · rename_i s' hs; exact ⟨s', hs⟩
    · cases this
  · have := h2.2
    split at this
    · assumption
    · cases this

end Varisat.Solver
