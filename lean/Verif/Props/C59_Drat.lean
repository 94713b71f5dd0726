import Verif.Proof.Drat
import Verif.Props.C45_Incremental
import Verif.Props.C48_Cli
import Verif.Props.C52_ProofFile
import Verif.Props.C53_NoPanic
import Verif.Props.C54_Termination
import Verif.Proof.Solver.CloseTotal
/-!
# C59: DRAT proofs are valid

A solver was used with `write_proof` in one of the two DRAT formats, and `close_proof` returned without an error. The
bytes of the file are those of a DRAT file, and all its lines are accepted by a checker that is given the clauses of the
user: every clause added follows by unit propagation from those before, and every clause deleted is there. The proof is a
refutation exactly if the answer was "unsatisfiable".

What is read from the bytes and when a proof is valid is in `Spec/Lrat.lean` and `Spec/Drat.lean`, in terms of signed
numbers. `added (before h)` are the clauses of the calls of `add_clause` before the first `solve`.

Partial: no variables were hidden or observed before the first `solve`. Otherwise the numbers in the file are not those
of the user (`C59.renamed`). Histories with assumptions, or with clauses added after `solve`, are not covered; DRAT output
panics on them (`C51.drat_assume`, `C51.drat_incremental`).
-/
namespace Varisat.Solver
open Api (Hist added Plain)
open Checker (Accepting restOf View Cover ints)
open Spec.Drat (Valid after Refutation)
open Spec.Lrat (readDrat readBinaryDrat)
open Sample (cl asm see_joint penv penv_accepting)

variable {α : Type} [LinearOrder α] {env : Out.Env} {check : Bool} {g : Out.Format}

/-- The lines of a closed proof file, read from its bytes. -/
def C59.Reads (file : Out.File) (lines : List (Bool × List Int)) : Prop :=
  file.format ≠ .varisat ∧ ∃ bytes, Drat.output (file.format = .binaryDrat) file.written = some bytes ∧
    (if file.format = .binaryDrat then readBinaryDrat else readDrat) bytes = some lines

/-- Valid lines keep all models. So there is no model if the clauses are refuted in the end. -/
theorem C59.sound {D : List (List Int)} {lines : List (Bool × List Int)} (h : Refutation D lines) (h1 : ∀ c ∈ D, (0 : Int) ∉ c)
    (h2 : ∀ x ∈ lines, (0 : Int) ∉ x.2) (τ : Nat → Prop) : ¬ Spec.Drat.Sat τ D := by
  intro hs
  obtain ⟨k1, k2⟩ := Checker.valid_sat h.1 hs h1 h2
  obtain ⟨x, hx, -⟩ := Checker.rup_holds h.2 k1 k2 (by simp)
  cases hx

theorem C59.lit_ne (l : Lit) : l.toDimacs ≠ 0 := by
  unfold Lit.toDimacs
  split <;> omega

theorem C59.zero_ints (c : List Lit) : (0 : Int) ∉ ints c := by
  intro h
  obtain ⟨l, -, h⟩ := List.mem_map.1 h
  exact C59.lit_ne l h

theorem C59.zero_events {L : List ProofStep} : ∀ x ∈ L.flatMap dratEvents, (0 : Int) ∉ x.2 := by
  intro x hx
  obtain ⟨st, -, hx⟩ := List.mem_flatMap.1 hx
  cases st <;> simp only [dratEvents, List.mem_singleton, List.not_mem_nil, List.mem_map] at hx
  · rw [hx]; exact C59.zero_ints _
  · obtain ⟨u, -, rfl⟩ := hx
    intro h
    exact C59.lit_ne _ (List.mem_singleton.1 h).symm
  · rw [hx]; exact C59.zero_ints _

/-- The same satisfying assignments. -/
theorem C59.sat_ints {τ : Asg} {C : List (List Lit)} (h : cnfSat τ C) : Spec.Drat.Sat (fun n => τ (n - 1) = true) (C.map ints) := by
  intro c hc
  obtain ⟨d, hd, rfl⟩ := List.mem_map.1 hc
  obtain ⟨l, hl, h⟩ := h d hd
  refine ⟨l.toDimacs, Checker.mem_ints.2 hl, ?_⟩
  unfold Lit.holds at h
  have e : l.toDimacs = if l.isNeg then -(l.var + 1 : Int) else (l.var + 1 : Int) := rfl
  unfold Spec.Drat.holds
  cases hn : l.isNeg <;> simp only [hn, Bool.false_eq_true, if_true, if_false] at h e <;> rw [e]
  · rw [if_pos (by omega)]
    show τ (((l.var : Nat) + 1 : Int).natAbs - 1) = true
    rw [show ((l.var : Nat) + 1 : Int).natAbs - 1 = l.var by omega]
    exact h
  · rw [if_neg (by omega)]
    show ¬ τ ((-((l.var : Nat) + 1 : Int)).natAbs - 1) = true
    rw [show (-((l.var : Nat) + 1 : Int)).natAbs - 1 = l.var by omega, h]
    simp

/-- The file of a history. -/
theorem C59.file_partial {s : St α} {o o' : Out.Sess} {h : Hist} (hg : g ≠ .varisat)
    (x : Joint env (some g) check s o h) (hasm : NoAsm h) (hs : C51.Small (some g) s) (hp : Plain (before h))
    (hc : Out.close env o = some (o', .unit)) :
    ∃ file lines, o'.files = o.files ++ [file] ∧ file.format = g ∧ C59.Reads file lines ∧ (∀ x ∈ lines, (0 : Int) ∉ x.2) ∧
      Valid ((added (before h)).map ints) lines ∧ (s.sat = .unsat → Refutation ((added (before h)).map ints) lines) := by
  have ha := env.chk.lenient_accepting
  have x := x.lenient_of_close hc
  have hc : Out.close env.lenient o = some (o', .unit) := hc
  have l : Limits (some g) s := ⟨hs.1, hs.2, x.exec.fine_of_noAsm hasm⟩
  obtain ⟨-, -, s0, x0, hF, hle⟩ := x.follows ha l
  obtain ⟨Q, w, q1, q2, -, q3⟩ := Out.close_format hF rfl (fun hv => l.net hv _ (List.prefix_refl _)) hc
  obtain ⟨rfl, q4⟩ := q3 hg
  obtain ⟨a, ids, -, hi, htr⟩ := x.exec.tracked l.vars
  obtain ⟨V, hV, hsim⟩ := htr.view
  have hV := hV.full l.fine
  have hl0 : s0.vars.gfs.len < 2 ^ 32 := Nat.lt_of_le_of_lt hle l.vars
  obtain ⟨-, t2, t3, -⟩ := x0.tells (before_noSolve h) hp hl0
  rw [q1] at hV
  obtain ⟨h1, rfl⟩ := Checker.shown_iff.1 hV
  obtain ⟨h2, h3⟩ := h1.left
  obtain ⟨h4, h5⟩ := h2.reorder t2
  have h6 : ((Checker.addsOf s0.log).map ProofStep.addClause).foldl View.step {} = ((added (before h)).map ProofStep.addClause).foldl View.step {} := t3
  rw [h6] at h4 h5
  rw [← h5] at h3
  have c0 : Cover ((added (before h)).map ints) (((added (before h)).map ProofStep.addClause).foldl View.step {}) := Cover.nil.adds
  have hno : ∀ st ∈ restOf s0.log ++ Q, ∀ c, st ≠ .addClause c := by
    rintro st hst c rfl
    exact absurd (q4 (.addClause c) (List.mem_append_left _ hst)) (by simp [Drat.steps])
  obtain ⟨v1, v2⟩ := c0.steps (h4.append h3) hno
  rw [List.foldl_append, h5, ← List.foldl_append] at v2
  have ev : (restOf s0.log ++ Q ++ [ProofStep.end_]).flatMap dratEvents = (restOf s0.log ++ Q).flatMap dratEvents := by
    rw [List.flatMap_append]; simp [dratEvents]
  have hsome : (Drat.output (g = .binaryDrat) (restOf s0.log ++ Q ++ [.end_])).isSome := by
    rw [C25.supported]
    intro st hst
    have := q4 st hst
    cases st <;> first | rfl | cases this
  obtain ⟨bytes, hb⟩ := Option.isSome_iff_exists.1 hsome
  have hr := C25.read_back _ _ _ hb
  simp only [decide_eq_true_eq] at hr
  refine ⟨_, _, q2, rfl, ⟨hg, bytes, hb, hr⟩, C59.zero_events, ?_, fun hu => ⟨?_, ?_⟩⟩
  · rw [ev]; exact v1
  · rw [ev]; exact v1
  · rw [ev]; exact v2.rup (hsim.unsat.2 hu)

/-- One call of `solve` after adding clauses: the file is valid, and it refutes the formula if and only if the answer was
"unsatisfiable". -/
theorem C59.solve_once_partial {s : St α} {o o' : Out.Sess} {h : Hist} {r : Nat} (hg : g ≠ .varisat)
    (x : Joint env (some g) check s o (h ++ [(.solve, [r])])) (hno : NoSolve h) (hasm : NoAsm h) (hs : C51.Small (some g) s)
    (hp : Plain h) (hc : Out.close env o = some (o', .unit)) :
    ∃ file lines, o'.files = o.files ++ [file] ∧ file.format = g ∧ C59.Reads file lines ∧ Valid ((added h).map ints) lines ∧
      (Refutation ((added h).map ints) lines ↔ r = 0) := by
  have hb : before (h ++ [(.solve, [r])]) = h := by
    rw [before_snoc (.inr rfl), before_of hno]
  have hasm' : NoAsm (h ++ [(.solve, [r])]) := by
    intro y hy ls hl
    rcases List.mem_append.1 hy with hy | hy
    · exact hasm y hy ls hl
    · rw [List.mem_singleton.1 hy] at hl; cases hl
  obtain ⟨file, lines, k1, k2, k3, k4, k5, k6⟩ := C59.file_partial hg x hasm' hs (by rw [hb]; exact hp) hc
  rw [hb] at k5 k6
  refine ⟨file, lines, k1, k2, k3, k5, fun hr => ?_, fun hr => k6 ((C52.answer x.exec hasm').2 hr)⟩
  rcases C45.every_answer (h2 := []) x.exec hp with ⟨k, τ, t1, -⟩ | ⟨k, -⟩
  · refine absurd (C59.sat_ints t1) (C59.sound hr (fun c hc => ?_) k4 _)
    obtain ⟨d, -, rfl⟩ := List.mem_map.1 hc
    exact C59.zero_ints d
  · simpa using k

/-- Calls of `add_clause`; the inner `none` is a call that returned an error. -/
def C59.load (e : Env α) (env : Out.Env) : List (List Lit) → St α → Out.Sess → Except Stop (Option (St α × Out.Sess))
  | [], s, o => .ok (some (s, o))
  | c :: cs, s, o =>
    match s.joint e env (.addClause c) o with
    | .error x => .error x
    | .ok (_, _, _, some _) => .ok none
    | .ok (s, o, _, none) => C59.load e env cs s o

/-- A whole session: a new solver with a proof in the format `g`, and self checking if `check`; calls of `add_clause`,
`solve` with `n` steps for the search, `close_proof`. The result is the answer with the file. -/
def C59.session (e : Env α) (env : Out.Env) (g : Out.Format) (check : Bool) (cs : List (List Lit)) (n : Nat) :
    Except Stop (Option (List Nat × Option Out.File)) :=
  match C59.load e env cs (St.new e) (setup (some g) check) with
  | .error x => .error x
  | .ok none => .ok none
  | .ok (some (s, o)) =>
    match s.joint e env (.solve n) o with
    | .error x => .error x
    | .ok (_, _, _, some _) => .ok none
    | .ok (_, o, r, none) =>
      match Out.close env o with
      | none => .error .panic
      | some (o, .unit) => .ok (some (r, o.files.getLast?))
      | some _ => .ok none

/-- Few enough variables. -/
theorem C59.small {s : St α} {cs : List (List Lit)} (x : Exec s (cs.map fun c => (.addClause c, []))) (hv : ∀ c ∈ cs, ∀ l ∈ c, l.var < 2 ^ 31) :
    s.vars.gfs.len < 2 ^ 32 := by
  obtain ⟨a, ids, hr, hi⟩ := x.inv
  have h1 := hi.varCount_le (x.fresh_sched (fun y hy => by obtain ⟨c, -, rfl⟩ := List.mem_map.1 hy; exact fun h => by cases h)).2
  have h2 : a.next ≤ 2 ^ 31 := by
    refine C54.next_le hr (fun y hy => ?_) (fun y hy => ?_)
    · obtain ⟨c, -, rfl⟩ := List.mem_map.1 hy; exact ⟨(fun u h => by cases h), (fun h => by cases h)⟩
    · obtain ⟨c, hc, rfl⟩ := List.mem_map.1 hy; exact hv c hc
  have h3 : s.varCount = s.vars.gfs.len := hi.b.q.count
  omega

theorem C59.oneShot {cs : List (List Lit)} {k : Hist} (hk : k = [] ∨ ∃ r, k = [(.solve, r)]) :
    Api.OneShot (cs.map (fun c => (.addClause c, ([] : List Nat))) ++ k) := by
  constructor
  · intro y hy ls hl
    rcases List.mem_append.1 hy with hy | hy
    · obtain ⟨c, -, rfl⟩ := List.mem_map.1 hy; cases hl
    · rcases hk with rfl | ⟨r, rfl⟩
      · cases hy
      · rw [List.mem_singleton.1 hy] at hl; cases hl
  · refine List.pairwise_append.2 ⟨?_, ?_, ?_⟩
    · refine List.pairwise_of_forall_mem_list fun y hy z hz h => ?_
      obtain ⟨c, -, rfl⟩ := List.mem_map.1 hy
      cases h
    · rcases hk with rfl | ⟨r, rfl⟩
      · exact List.Pairwise.nil
      · exact List.pairwise_singleton _ _
    · intro y hy z hz h
      obtain ⟨c, -, rfl⟩ := List.mem_map.1 hy
      cases h

theorem C59.noSingle {s : St α} {h : Hist} (x : Exec s h) (hn : NoAsm h) : ¬ C28.AfterSingle s.log := by
  rintro ⟨L1, L2, l, hx, hL, -⟩
  have := x.noFail hn [l] hx (by rw [hL]; simp)
  cases this

theorem C59.load_total (ha : Accepting env.chk) (hio : ∀ n, env.io n = true) (hg : g ≠ .varisat) {e : Env α} (he : e.Ok) :
    ∀ (cs : List (List Lit)) {pre : List (List Lit)} {s : St α} {o : Out.Sess},
    Joint env (some g) check s o (pre.map fun c => (.addClause c, [])) → (∀ c ∈ pre ++ cs, ∀ l ∈ c, l.var < 2 ^ 31) →
    ∃ s' o', C59.load e env cs s o = .ok (some (s', o')) ∧ Joint env (some g) check s' o' ((pre ++ cs).map fun c => (.addClause c, []))
  | [], pre, s, o, x, _ => ⟨s, o, rfl, by simpa using x⟩
  | c :: cs, pre, s, o, x, hv => by
    have hn : s.step e (.addClause c) ≠ .error .panic := by
      refine C53.plain_never x.exec he _ (fun y hy => ?_)
      obtain ⟨c, _, rfl⟩ := List.mem_map.1 hy
      exact ⟨fun ls k => (by cases k), fun u k => (by cases k), fun k => (by cases k)⟩
    obtain ⟨a, ids, _, hi⟩ := x.exec.inv
    obtain ⟨s', k⟩ : ∃ s', s.step e (.addClause c) = .ok (s', []) := by
      rcases hi.step he (.addClause c) with ⟨k, _⟩ | ⟨_, n, k⟩ | ⟨s', r, _, _, k, _⟩
      · exact absurd k hn
      · cases k
      · cases hl : s.loadClause e c with
        | error z =>
          unfold St.step at k
          simp only [hl] at k
          cases k
        | ok t => exact ⟨t, by unfold St.step; simp only [hl]; rfl⟩
    have x' : Exec s' ((pre ++ [c]).map fun c => (.addClause c, [])) := by
      simpa [Op.call] using Exec.call (op := .addClause c) e x.exec he k
    have hsm := C59.small x' (fun d hd => hv d (by simp at hd ⊢; exact hd.imp_right .inl))
    obtain ⟨o', er, j1, j2⟩ := C51.self_check_partial ha x he k ⟨hsm, fun hf => absurd (Option.some.inj hf) hg⟩
      (C59.noSingle x' (fun y hy ls hl => by obtain ⟨c, -, rfl⟩ := List.mem_map.1 hy; cases hl))
      (fun _ => by simpa [Op.call] using C59.oneShot (cs := pre ++ [c]) (.inl rfl))
    obtain rfl : er = none := by
      rcases j2 with j2 | ⟨-, n, j2⟩
      · exact j2
      · rw [hio] at j2; cases j2
    obtain ⟨s2, o2, q1, q2⟩ := C59.load_total ha hio hg he cs (pre := pre ++ [c]) (s := s') (o := o')
      (by simpa [Op.call] using Joint.call e x he j1) (by simpa using hv)
    refine ⟨s2, o2, ?_, by simpa using q2⟩
    unfold C59.load
    rw [j1]
    exact q1

/-- **A whole session with a DRAT proof**, for all clauses over 2^31 variables, if files can be written and the processors
of the user report no errors: no call panics or returns an error, the answer is right, and the file is a valid DRAT proof.
It is a refutation of the clauses if and only if they are unsatisfiable. -/
theorem C59.session_decides (ha : Accepting env.chk) (hio : ∀ n, env.io n = true) (hg : g ≠ .varisat) {e : Env α} (he : e.Ok)
    (check : Bool) {cs : List (List Lit)} (hv : ∀ c ∈ cs, ∀ l ∈ c, l.var < 2 ^ 31) :
    ∃ N r file lines, (∀ n, N ≤ n → C59.session e env g check cs n = .ok (some ([r], some file))) ∧
      (r = 0 ∨ r = 1) ∧ (r = 0 ↔ Unsat cs) ∧ file.format = g ∧ C59.Reads file lines ∧ Valid (cs.map ints) lines ∧
      (Refutation (cs.map ints) lines ↔ Unsat cs) := by
  obtain ⟨s, o, h1, x⟩ := C59.load_total (check := check) ha hio hg he cs (pre := []) (.new e) (by simpa using hv)
  rw [List.nil_append] at x
  have hadd : added (cs.map fun c => (.addClause c, ([] : List Nat))) = cs := Cli.added_clauses cs
  have hplain := Cli.plain_clauses cs
  obtain ⟨N, s', r, k1, k2, k3⟩ := C54.decides x.exec hplain he
  have x' : Exec s' ((cs.map fun c => (.addClause c, [])) ++ [(.solve, r)]) := .call (op := .solve N) e x.exec he (k1 N (Nat.le_refl _))
  have hasm : NoAsm (cs.map fun c => (.addClause c, ([] : List Nat))) := fun y hy ls hl => by
    obtain ⟨c, -, rfl⟩ := List.mem_map.1 hy; cases hl
  have hns : NoSolve (cs.map fun c => (.addClause c, ([] : List Nat))) := fun y hy => by
    obtain ⟨c, -, rfl⟩ := List.mem_map.1 hy; exact fun h => by cases h
  have hasm' : NoAsm ((cs.map fun c => (.addClause c, [])) ++ [(.solve, r)]) := (C59.oneShot (.inr ⟨r, rfl⟩)).noAsm
  have hsm : C51.Small (some g) s' := by
    refine ⟨?_, fun hf => absurd (Option.some.inj hf) hg⟩
    have := C59.small x.exec hv
    obtain ⟨a, ids, hr, hi⟩ := x.exec.inv
    have k := k1 N (Nat.le_refl _)
    obtain ⟨⟨t, b⟩, q1, q2⟩ := bind_inv (show (s.solve e N >>= fun q => pure (q.1, [if q.2 then 1 else 0])) = .ok (s', r) from k)
    have q2 : (Except.ok (t, [if b then 1 else 0]) : Except Stop (St α × List Nat)) = .ok (s', r) := q2
    simp only [Except.ok.injEq, Prod.mk.injEq] at q2
    obtain ⟨rfl, -⟩ := q2
    rw [hi.solve_slen q1]
    exact this
  have hstep : ∀ n, N ≤ n → ∃ o', s.joint e env (.solve n) o = .ok (s', o', r, none) := by
    intro n hn
    obtain ⟨o', er, j1, j2⟩ := C51.self_check_partial ha x he (k1 n hn) hsm (C59.noSingle x' hasm') (fun _ => C59.oneShot (.inr ⟨r, rfl⟩))
    rcases j2 with rfl | ⟨-, m, j2⟩
    · exact ⟨o', j1⟩
    · rw [hio] at j2; cases j2
  have hsame : ∀ n, N ≤ n → s.joint e env (.solve n) o = s.joint e env (.solve N) o := by
    intro n hn
    unfold St.joint
    rw [k1 n hn, k1 N (Nat.le_refl _)]
  obtain ⟨o1, j⟩ := hstep N (Nat.le_refl _)
  have xj : Joint env (some g) check s' o1 ((cs.map fun c => (.addClause c, [])) ++ [(.solve, r)]) := .call (op := .solve N) e x he j
  obtain ⟨-, -, s0, -, hF, -⟩ := xj.follows ha ⟨hsm.1, hsm.2, x'.fine_of_noAsm hasm'⟩
  obtain ⟨o2, hc⟩ := Out.close_total hio hF (fun hf => absurd (Option.some.inj hf) hg)
  have hun : Unsat cs ↔ r = [0] := by
    rw [hadd] at k3
    rcases k2 with rfl | rfl
    · simp only [iff_true]
      intro τ hτ
      exact absurd (k3.2 ⟨τ, hτ, by rw [Cli.assumed_clauses]; intro l hl; cases hl⟩) (by simp)
    · obtain ⟨τ, q, -⟩ := k3.1 rfl
      exact ⟨fun hu => absurd q (hu τ), fun h => absurd h (by simp)⟩
  obtain ⟨r, rfl⟩ : ∃ q, r = [q] := by rcases k2 with rfl | rfl <;> exact ⟨_, rfl⟩
  obtain ⟨file, lines, f1, f2, f3, f4, f5⟩ := C59.solve_once_partial hg xj hns hasm hsm hplain hc
  rw [hadd] at f4 f5
  refine ⟨N, r, file, lines, fun n hn => ?_, by simpa using k2, by rw [hun]; simp, f2, f3, f4, by rw [f5, hun]; simp⟩
  unfold C59.session
  rw [h1]
  simp only
  rw [hsame n hn, j]
  simp only
  rw [hc]
  simp only
  rw [f1]
  simp

/-- A file and its lines. -/
theorem C59.reads {file : Out.File} (hg : file.format ≠ .varisat) (h : (Drat.output (file.format = .binaryDrat) file.written).isSome) :
    C59.Reads file (file.written.flatMap dratEvents) := by
  obtain ⟨bytes, hb⟩ := Option.isSome_iff_exists.1 h
  have hr := C25.read_back _ _ _ hb
  simp only [decide_eq_true_eq] at hr
  exact ⟨hg, bytes, hb, hr⟩

/-- The lines are determined by the file. -/
theorem C59.Reads.unique {file : Out.File} {L M : List (Bool × List Int)} (h : C59.Reads file L) (k : C59.Reads file M) : L = M := by
  obtain ⟨-, b, h1, h2⟩ := h
  obtain ⟨-, b', k1, k2⟩ := k
  rw [h1] at k1
  cases k1
  rw [h2] at k2
  exact Option.some.inj k2

/-- Without the restriction on hidden variables the claim is false. A variable is hidden after use, and its number is used
for a new one, which has another number in the file. The file starts with a clause of a variable that the user has never
mentioned, which does not follow by unit propagation. -/
theorem C59.renamed : ∃ (s : St Nat) (o o' : Out.Sess) (h : Hist) (file : Out.File) (lines : List (Bool × List Int)),
    Joint penv (some .drat) false s o (h ++ [(.solve, [0])]) ∧ NoSolve h ∧ NoAsm h ∧ Accepting penv.chk ∧
    Out.close penv o = some (o', .unit) ∧ o'.files.getLast? = some file ∧ C59.Reads file lines ∧
    ¬ Valid ((added h).map ints) lines := by
  let ops : List Op := [cl [1, 2], .hideVar 0, cl [3, 1], cl [1, -3], cl [-1, 3], cl [-1, -3]]
  let h : Hist := (ops.map Op.call).zip [[], [], [], [], [], []]
  obtain ⟨s, o, rs, h1, h2⟩ := see_joint (f := some .drat) (check := false)
    (g := fun _ o rs => (rs, match Out.close penv o with
      | some (o', .unit) => o'.files.getLast?.map fun (x : Out.File) => decide (x.format = .drat) &&
        (Drat.output (x.format = .binaryDrat) x.written).isSome &&
        decide (x.written.flatMap dratEvents = [(true, [4]), (true, [3]), (true, [])])
      | _ => none)) (ops := ops ++ [.solve 20])
    (x := ([[], [], [], [], [], [], [0]], some true)) (by decide +kernel)
  simp only [Prod.mk.injEq] at h2
  obtain ⟨rfl, h3⟩ := h2
  have hn : NoSolve h ∧ NoAsm h := by
    constructor
    · intro x hx
      simp [h, ops, cl, Op.call] at hx
      rcases hx with rfl | rfl | rfl | rfl | rfl | rfl <;> exact fun h => by cases h
    · intro x hx ls hl
      simp [h, ops, cl, Op.call] at hx
      rcases hx with rfl | rfl | rfl | rfl | rfl | rfl <;> cases hl
  split at h3
  swap
  · cases h3
  rename_i o' hc
  cases hf : o'.files.getLast? with
  | none => rw [hf] at h3; cases h3
  | some file =>
    rw [hf] at h3
    simp only [Option.map_some, Option.some.injEq, Bool.and_eq_true, decide_eq_true_eq] at h3
    obtain ⟨⟨k1, k2⟩, k3⟩ := h3
    have hr := C59.reads (by rw [k1]; decide) k2
    rw [k3] at hr
    refine ⟨s, o, o', h, file, _, h1, hn.1, hn.2, penv_accepting, hc, hf, hr, ?_⟩
    have hD : (added h).map ints = [[1, 2], [3, 1], [1, -3], [-1, 3], [-1, -3]] := by decide
    rw [hD]
    rintro ⟨⟨d, hd, hm⟩, -⟩
    -- unit propagation finds nothing
    have key : ∀ l, Spec.Drat.Forced [[1, 2], [3, 1], [1, -3], [-1, 3], [-1, -3]] (fun l => -l ∈ [(4 : Int)]) l → l = -4 := by
      intro l hl
      induction hl with
      | start h => have := List.mem_singleton.1 h; omega
      | @unit c l hc hl _ ih =>
        exfalso
        have hother : ∃ m ∈ c, m ≠ l ∧ m ≠ 4 := by
          simp only [List.mem_cons, List.not_mem_nil, or_false] at hc
          rcases hc with rfl | rfl | rfl | rfl | rfl <;> simp at hl <;> rcases hl with rfl | rfl <;> simp
        obtain ⟨m, m1, m2, m3⟩ := hother
        have := ih m m1 m2
        omega
    simp only [List.mem_cons, List.not_mem_nil, or_false] at hd
    rcases hd with rfl | rfl | rfl | rfl | rfl <;> exact absurd (key _ (hm _ List.mem_cons_self)) (by decide)

/-- The hypotheses of `C59.solve_once_partial` for some clauses and an answer. -/
def C59.Meets (g : Out.Format) (cs : List (List Lit)) (r : Nat) : Prop :=
  g ≠ .varisat ∧ ∃ (s : St Nat) (o o' : Out.Sess) (h : Hist), Joint penv (some g) true s o (h ++ [(.solve, [r])]) ∧ NoSolve h ∧
    NoAsm h ∧ C51.Small (some g) s ∧ Plain h ∧ added h = cs ∧ Out.close penv o = some (o', .unit)

theorem C59.meets {g : Out.Format} (hg : g ≠ .varisat) {cs : List (List Lit)} {r : Nat}
    (h : Sample.seeJoint (some g) true (fun s o rs => (rs, decide (s.vars.gfs.len < 2 ^ 32),
        match Out.close penv o with | some (_, .unit) => true | _ => false)) (cs.map .addClause ++ [.solve 20]) =
      some (cs.map (fun _ => []) ++ [[r]], true, true)) : C59.Meets g cs r := by
  obtain ⟨s, o, rs, h1, h2⟩ := see_joint h
  simp only [Prod.mk.injEq, decide_eq_true_eq] at h2
  obtain ⟨rfl, h3, h4⟩ := h2
  split at h4
  swap
  · cases h4
  rename_i o' hc
  rw [List.map_append, List.zip_append (by simp)] at h1
  have e : (List.map Op.call (cs.map .addClause)).zip (cs.map fun _ => ([] : List Nat)) = cs.map fun c => (.addClause c, []) := by
    rw [List.map_map]
    clear h h1
    induction cs with
    | nil => rfl
    | cons c cs ih => simp only [List.map_cons, List.zip_cons_cons, ih]; rfl
  rw [e] at h1
  refine ⟨hg, s, o, o', _, h1, fun y hy => ?_, fun y hy ls hl => ?_, ⟨h3, fun hf => absurd (Option.some.inj hf) hg⟩, fun y hy => ?_, ?_, hc⟩
  · obtain ⟨c, -, rfl⟩ := List.mem_map.1 hy; exact fun h => by cases h
  · obtain ⟨c, -, rfl⟩ := List.mem_map.1 hy; cases hl
  · obtain ⟨c, -, rfl⟩ := List.mem_map.1 hy; exact ⟨(fun u h => by cases h), (fun h => by cases h)⟩
  · clear h h1 e
    induction cs with
    | nil => rfl
    | cons c cs ih => unfold added at ih ⊢; simp [ih]

/-- A clause, from signed numbers. -/
def C59.lits (c : List Int) : List Lit := c.map Lit.fromDimacs

/-- Concrete cases: a refutation with self checking in the textual and in the binary format, and a satisfiable formula. -/
example : C59.Meets .drat [C59.lits [1, 2, 3], C59.lits [-1, 2], C59.lits [1, -2], C59.lits [-1, -2, 3], C59.lits [-3, 1], C59.lits [-3, -2]] 0 ∧
    C59.Meets .binaryDrat [C59.lits [1, 2, 3], C59.lits [-1, 2], C59.lits [1, -2], C59.lits [-1, -2, 3], C59.lits [-3, 1], C59.lits [-3, -2]] 0 ∧
    C59.Meets .drat [C59.lits [1, 2, 3], C59.lits [-1, 2], C59.lits [1, -2]] 1 :=
  ⟨C59.meets (by decide) (by decide +kernel), C59.meets (by decide) (by decide +kernel), C59.meets (by decide) (by decide +kernel)⟩

/-- The hypotheses of `C59.session_decides` and what the session returns. -/
example : Accepting penv.chk ∧ (∀ n, penv.io n = true) ∧ Sample.env.Ok ∧
    (∀ c ∈ [C59.lits [1, 2, 3], C59.lits [-1, 2], C59.lits [1, -2], C59.lits [-1, -2]], ∀ l ∈ c, l.var < 2 ^ 31) ∧
    C59.session Sample.env penv .drat true [C59.lits [1, 2, 3], C59.lits [-1, 2], C59.lits [1, -2], C59.lits [-1, -2]] 20 matches
      .ok (some ([1], some _)) :=
  ⟨penv_accepting, fun _ => rfl, Sample.env_ok, by decide, by decide +kernel⟩

end Varisat.Solver
