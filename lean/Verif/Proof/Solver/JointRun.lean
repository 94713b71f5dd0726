import Verif.Proof.Joint
import Verif.Proof.Solver.Says
import Verif.Proof.Solver.SimExec
/-! Histories of a solver with proof output. -/
namespace Varisat.Solver
open Api (Hist Abs)
open Checker (Shown Accepting View)

variable {α : Type} [LinearOrder α] {env : Out.Env} {f : Option Out.Format} {check : Bool}

/-- The calls before the first `solve`. -/
def before : Hist → Hist
  | [] => []
  | (.solve, _) :: _ => []
  | x :: h => x :: before h

/-- A history without `solve`. -/
def NoSolve (h : Hist) : Prop := ∀ x ∈ h, x.1 ≠ .solve

theorem before_cons {c : Api.Call} {r : List Nat} (h : Hist) (hc : c ≠ .solve) : before ((c, r) :: h) = (c, r) :: before h := by
  cases c <;> first | rfl | exact absurd rfl hc

theorem before_of : ∀ {h : Hist}, NoSolve h → before h = h
  | [], _ => rfl
  | (c, r) :: h, hn => by
    rw [before_cons h (hn (c, r) (by simp)), before_of fun x hx => hn x (by simp [hx])]

theorem before_snoc : ∀ {h : Hist} {x : Api.Call × List Nat}, ¬ NoSolve h ∨ x.1 = .solve → before (h ++ [x]) = before h
  | [], (c, r), hn => by
    rcases hn with hn | hn
    · exact absurd (fun x hx => by cases hx) hn
    · have hn : c = .solve := hn
      subst hn; rfl
  | (d, q) :: h, (c, r), hn => by
    by_cases hd : d = .solve
    · subst hd; rfl
    · rw [List.cons_append, before_cons _ hd, before_cons _ hd, before_snoc]
      rcases hn with hn | hn
      · left
        intro hns
        refine hn fun x hx => ?_
        rcases List.mem_cons.1 hx with rfl | hx
        · exact hd
        · exact hns x hx
      · exact .inr hn

theorem before_noSolve : ∀ (h : Hist), NoSolve (before h)
  | [] => fun x hx => by cases hx
  | (c, r) :: h => by
    by_cases hc : c = .solve
    · subst hc; exact fun x hx => by cases hx
    · rw [before_cons h hc]
      intro x hx
      rcases List.mem_cons.1 hx with rfl | hx
      · exact hc
      · exact before_noSolve h x hx

/-- A call of `solve`. -/
def Op.isSolve : Op → Bool
  | .solve _ => true
  | _ => false

theorem Op.call_solve {op : Op} : op.call = .solve ↔ ∃ n, op = .solve n := by
  cases op <;> simp [Op.call]

theorem St.step_of_joint {s s' : St α} {o o' : Out.Sess} {e : Env α} {op : Op} {r : List Nat} {er} (hs : s.joint e env op o = .ok (s', o', r, er)) :
    s.step e op = .ok (s', r) := by
  have := hs
  unfold St.joint at this
  split at this
  · cases this
  · rename_i s1 r1 h1
    rw [h1]
    split at this
    · split at this
      · cases this
      · split at this
        · cases this
        · split at this
          · cases this
          · simp only [Except.ok.injEq, Prod.mk.injEq] at this
            rw [this.1, this.2.2.1]
    · split at this
      · cases this
      · cases this; rfl

theorem Joint.exec {s : St α} {o : Out.Sess} {h : Hist} (x : Joint env f check s o h) : Exec s h := by
  induction x with
  | new e => exact .new e
  | @call s s' o o' h op r e x he hs ih =>
    exact .call e ih he (St.step_of_joint hs)

/-- The limits under which the checker is known to follow: fewer than 2^32 solver variables, at most 2^32
clauses counted if a proof with hashes is written, and no failed core after one of a single literal. -/
structure Limits (f : Option Out.Format) (s : St α) : Prop where
  vars : s.vars.gfs.len < 2 ^ 32
  net : f = some .varisat → ∀ M, M <+: s.log → netClauses M ≤ 2 ^ 32
  fine : Fine s.log

theorem Limits.of_step {s s' : St α} {h : Hist} {e : Env α} {op : Op} {r : List Nat} (x : Exec s h) (hs : s.step e op = .ok (s', r))
    (l : Limits f s') : Limits f s := by
  obtain ⟨a, ids, _, hi⟩ := x.inv
  obtain ⟨h1, h2⟩ := hi.step_grows hs
  exact ⟨by have := l.vars; omega, fun hf M hM => l.net hf M (hM.trans h2), l.fine.of_prefix h2⟩

variable (ha : Accepting env.chk)
include ha

/-- One call: it does not panic because of the proof output unless DRAT does not know a step. -/
theorem joint_step {s s' : St α} {o : Out.Sess} {h : Hist} {e : Env α} {op : Op} {r : List Nat} {P : List ProofStep} (x : Exec s h)
    (he : e.Ok) (hs : s.step e op = .ok (s', r)) (l : Limits f s') (hF : Out.Follows env f check P s.log o) (hv : o.invalid = false) :
    (s.joint e env op o = .error .panic ∧ Out.IsDrat f ∧ ∃ L, s'.log = s.log ++ L ∧
      ∃ st ∈ L, Out.Unwritable (o.invoked || op.isSolve) st) ∨
    ∃ o' er, s.joint e env op o = .ok (s', o', r, er) ∧ (∀ x, er = some x → x = .io ∧ ∃ n, env.io n = false) ∧ (er = none → o'.invalid = false) ∧
      ((∃ n, op = .solve n) → er = none → o'.invoked = true ∧ Out.Follows env f check P s'.log o' ∧
        ∀ c, o'.proof.checker = some c → c.unsat = true → Checker.Refutes c.out) ∧
      ((∀ n, op ≠ .solve n) → o'.invoked = o.invoked ∧
        ∃ L, s'.log = s.log ++ L ∧ Out.Follows env f check (if o.invoked then P else P ++ L) s'.log o') := by
  obtain ⟨a, ids, _, hi⟩ := x.inv
  obtain ⟨L, hL⟩ := (hi.step_grows hs).2
  obtain ⟨_, _, _, _, ht⟩ := Exec.tracked (.call e x he hs) l.vars
  obtain ⟨V, hV, _⟩ := ht.view
  have hV := hV.full l.fine
  have hdrop : s'.log.drop s.log.length = L := by rw [← hL]; simp
  rw [← hL] at hV
  have hnet : f = some .varisat → ∀ M, M <+: s.log ++ L → netClauses M ≤ 2 ^ 32 := by rw [hL]; exact l.net
  by_cases hop : ∃ n, op = .solve n
  · obtain ⟨n, rfl⟩ := hop
    unfold St.joint
    rw [hs]
    simp only
    rw [hdrop, if_neg (by simp [hv])]
    have hF1 : Out.Follows env f check P s.log { o with invoked := true } :=
      ⟨hF.err, hF.chk, hF.cnt, hF.file, hF.raw, (fun h => by cases h), hF.keep, hF.bits.congr rfl rfl rfl rfl rfl (fun h => by cases h), hF.why⟩
    rcases Out.feed_follows ha L hF1 hV hnet with ⟨e1, f1, st, i1, i2⟩ | ⟨o1, e1, f1, i1, v1⟩
    · rw [e1]
      exact .inl ⟨rfl, f1, L, hL.symm, st, i1, by simpa [Op.isSolve] using i2⟩
    right
    rw [e1]
    simp only
    obtain ⟨o2, e2, f2, i2, v2, w2⟩ := Out.solveFinished_follows ha f1
    rw [e2]
    have key : (Out.takeError o2).2 = none → (Out.takeError o2).1 = o2 := by
      unfold Out.takeError
      split
      · intro h; cases h
      · exact fun _ => rfl
    refine ⟨_, _, rfl, fun x h => f2.why x ?_, fun h => ?_, fun _ h => ?_, fun h => absurd rfl (h n)⟩
    · unfold Out.takeError at h
      split at h
      · rename_i y hy
        rw [hy]; exact h
      · cases h
    · rw [key h]; exact v2.trans (v1.trans hv)
    · rw [key h, ← hL]
      exact ⟨i2.trans i1, f2, w2⟩
  · rcases Out.feed_follows ha L hF hV hnet with ⟨e1, f1, st, i1, i2⟩ | ⟨o1, e1, f1, i1, v1⟩
    · refine .inl ⟨?_, f1, L, hL.symm, st, i1, ?_⟩
      · unfold St.joint
        rw [hs]
        simp only
        rw [hdrop, e1]
        cases op <;> first | rfl | exact absurd ⟨_, rfl⟩ hop
      · have : op.isSolve = false := by cases op <;> first | rfl | exact absurd ⟨_, rfl⟩ hop
        rw [this, Bool.or_false]; exact i2
    right
    have hm : s.joint e env op o = .ok (s', o1, r, none) := by
      unfold St.joint
      rw [hs]
      simp only
      rw [hdrop, e1]
      cases op <;> first | rfl | exact absurd ⟨_, rfl⟩ hop
    refine ⟨o1, none, hm, (fun x h => by cases h), fun _ => v1.trans hv, fun h => absurd h hop, fun _ => ⟨i1, L, hL.symm, ?_⟩⟩
    rw [← hL]; exact f1

/-- All histories. -/
theorem Joint.follows {s : St α} {o : Out.Sess} {h : Hist} (x : Joint env f check s o h) (l : Limits f s) :
    o.invalid = false ∧ (o.invoked = false ↔ NoSolve h) ∧
      ∃ s0 : St α, Exec s0 (before h) ∧ Out.Follows env f check s0.log s.log o ∧ s0.vars.gfs.len ≤ s.vars.gfs.len := by
  induction x with
  | new e =>
    exact ⟨rfl, ⟨(fun _ x hx => by cases hx), fun _ => rfl⟩, St.new e, .new e, Out.Follows.setup, Nat.le_refl _⟩
  | @call s s' o o' h op r e x he hs ih =>
    have hstep := St.step_of_joint hs
    obtain ⟨i1, i2, s0, i3, i4, i5⟩ := ih (l.of_step x.exec hstep)
    have i5 : s0.vars.gfs.len ≤ s'.vars.gfs.len := by
      obtain ⟨a, ids, _, hi⟩ := x.exec.inv
      have := (hi.step_grows hstep).1
      omega
    rcases joint_step ha x.exec he hstep l i4 i1 with ⟨e1, -⟩ | ⟨o1, er, e1, -, e2, e3, e4⟩
    · rw [hs] at e1; cases e1
    rw [hs] at e1
    obtain ⟨-, rfl, -, rfl⟩ : s' = s' ∧ o' = o1 ∧ r = r ∧ none = er := by
      simpa [Except.ok.injEq, Prod.mk.injEq] using e1
    refine ⟨e2 rfl, ?_⟩
    by_cases hop : ∃ n, op = .solve n
    · obtain ⟨j1, j2, -⟩ := e3 hop rfl
      refine ⟨?_, s0, ?_, j2, i5⟩
      · rw [j1]
        refine ⟨(fun h => by cases h), fun hns => ?_⟩
        exact absurd (Op.call_solve.2 hop) (hns (op.call, r) (by simp))
      · rw [before_snoc (.inr (Op.call_solve.2 hop))]; exact i3
    · obtain ⟨j1, L, j2, j3⟩ := e4 (fun n hn => hop ⟨n, hn⟩)
      refine ⟨?_, ?_⟩
      · rw [j1, i2]
        constructor
        · intro hns x hx
          rcases List.mem_append.1 hx with hx | hx
          · exact hns x hx
          · rw [List.mem_singleton.1 hx]
            exact fun q => hop (Op.call_solve.1 q)
        · exact fun hns x hx => hns x (List.mem_append_left _ hx)
      · cases hinv : o.invoked with
        | true =>
          rw [hinv] at j3
          refine ⟨s0, ?_, j3, i5⟩
          rw [before_snoc (.inl fun hns => by rw [i2.2 hns] at hinv; cases hinv)]
          exact i3
        | false =>
          rw [hinv] at j3
          refine ⟨s', ?_, ?_, Nat.le_refl _⟩
          · rw [before_of]
            · exact .call e x.exec he hstep
            · intro x hx
              rcases List.mem_append.1 hx with hx | hx
              · exact i2.1 hinv x hx
              · rw [List.mem_singleton.1 hx]
                exact fun q => hop (Op.call_solve.1 q)
          · have := i4.early hinv
            rw [this] at j3
            simp only [Bool.false_eq_true, if_false] at j3
            rw [← j2] at j3; exact j3

end Varisat.Solver
