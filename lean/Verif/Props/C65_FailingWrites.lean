import Verif.Proof.CliFault
import Verif.Props.C64_CliFiles
/-!
# C65: a verdict is not printed before its proof is written

Writes to the proof file may fail at any time (`penv.io`), and so may the processor that writes LRAT files (`penv.chk`; `Fails` says
that it fails for some steps). The command line tool does not panic because of that. It prints the same verdict as without a
proof, or `s UNKNOWN` with status 0 if a write or the processor failed. If there is a verdict, a DRAT file has the whole proof, and
the processor has got all steps of an LRAT file: of that file at most what was in the buffer of the writer is missing.

This fails for the native format (`C65.marker_lost`): the end marker is written when the solver is dropped, and errors are
ignored then. The exit status is 20, and `varisat --check` rejects the file. It fails for LRAT files as well (`C65.lrat_lost`): the
buffer of the writer is not flushed before the verdict.
-/
namespace Varisat.Cli
open Solver Api
open Checker (Accepting ints restOf View Cover)
open Spec.Lrat (readDrat readBinaryDrat Line.events)
open Spec.Drat (Valid Refutation)

variable {α : Type} [LinearOrder α] {env : Config.SolverConfig → Solver.Env α} {penv : Out.Env} {args : FileArgs}

/-- What was written of a DRAT file when `solve` has returned without an error. -/
theorem C65.written (ha : Accepting penv.chk) {g : Out.Format} {check : Bool} {s : St α} {o : Out.Sess} {h : Hist} (hg : g ≠ .varisat)
    (x : Joint penv (some g) check s o h) (hasm : NoAsm h) (hs : C51.Small (some g) s) (hp : Plain (before h)) (her : o.error = none) :
    ∃ lines, (∀ w, w = o.proof.written ∨ w = o.proof.written ++ [.end_] → ∃ bytes, Drat.output (g = .binaryDrat) w = some bytes ∧
        (if g = .binaryDrat then readBinaryDrat else readDrat) bytes = some lines) ∧ (∀ x ∈ lines, (0 : Int) ∉ x.2) ∧
      Valid ((added (before h)).map ints) lines ∧ (s.sat = .unsat → Refutation ((added (before h)).map ints) lines) := by
  have l : Limits (some g) s := ⟨hs.1, hs.2, x.exec.fine_of_noAsm hasm⟩
  obtain ⟨-, -, s0, x0, hF, hle⟩ := x.follows ha l
  have hfo : o.proof.format = some g := (hF.keep her).1
  obtain ⟨Q, q1, q2⟩ := hF.file (by rw [hfo]; rfl)
  obtain ⟨q3, q4⟩ := hF.raw ⟨g, hfo, hg⟩
  rw [q2] at q3
  obtain ⟨a, ids, -, hi, htr⟩ := x.exec.tracked l.vars
  obtain ⟨V, hV, hsim⟩ := htr.view
  have hV := hV.full l.fine
  have hl0 : s0.vars.gfs.len < 2 ^ 32 := Nat.lt_of_le_of_lt hle l.vars
  obtain ⟨-, t2, t3, -⟩ := x0.tells (before_noSolve h) hp hl0
  rw [q1] at hV
  obtain ⟨h1, rfl⟩ := Checker.shown_iff.1 hV
  obtain ⟨h2, h3⟩ := h1.left
  obtain ⟨h4, h5⟩ := h2.reorder t2
  have h6 : ((Checker.addsOf s0.log).map ProofStep.addClause).foldl View.step {} = ((added (before h)).map ProofStep.addClause).foldl View.step {} := t3
  rw [h6] at h4 h5
  rw [← h5] at h3
  have c0 : Cover ((added (before h)).map ints) (((added (before h)).map ProofStep.addClause).foldl View.step {}) := Cover.nil.adds
  have hno : ∀ st ∈ restOf s0.log ++ Q, ∀ c, st ≠ .addClause c := by
    rintro st hst c rfl
    exact absurd (q4 (.addClause c) (by rw [q3]; exact hst)) (by simp [Drat.steps])
  obtain ⟨v1, v2⟩ := c0.steps (h4.append h3) hno
  rw [List.foldl_append, h5, ← List.foldl_append] at v2
  refine ⟨(restOf s0.log ++ Q).flatMap dratEvents, fun w hw => ?_, C59.zero_events, v1, fun hu => ⟨v1, v2.rup (hsim.unsat.2 hu)⟩⟩
  have hsome : (Drat.output (g = .binaryDrat) w).isSome := by
    rw [C25.supported]
    intro st hst
    rcases hw with rfl | rfl
    · have := q4 st hst
      cases st <;> first | rfl | cases this
    · rcases List.mem_append.1 hst with hst | hst
      · have := q4 st hst
        cases st <;> first | rfl | cases this
      · rw [List.mem_singleton.1 hst]; rfl
  obtain ⟨bytes, hb⟩ := Option.isSome_iff_exists.1 hsome
  have hr := C25.read_back _ _ _ hb
  simp only [decide_eq_true_eq] at hr
  refine ⟨bytes, hb, hr.trans ?_⟩
  rcases hw with rfl | rfl
  · rw [q3]
  · rw [List.flatMap_append, q3]; simp [dratEvents]

/-- The common part: the program ends, whatever writes fail. -/
theorem C65.run_any (he : ∀ c, (env c).Ok) (recip : Config.F32 → Config.F32) (log : Log)
    {kind : ProofKind} {i : Source} {cs : List (List Lit)} (h : args.Solves kind i cs) (hnet : args.format = some .varisat → ∀ c, NetFits (env c) cs) :
    ∃ (N : Nat) (out : Bytes) (code : Nat) (s : St α) (o o' : Out.Sess) (r : Nat) (er : Option Out.SErr) (ret : Out.Ret),
      (∀ n, N ≤ n → runFile recip env penv n log args = finish penv (some kind) out code o ∧ run recip env n log (args.plain er.isSome) = some (out, code)) ∧
      (er = none → Joint penv.lenient args.format args.checks s o ((cs.map fun c => (.addClause c, [])) ++ [(.solve, [r])])) ∧
      (er.isSome → (∃ n, penv.io n = false) ∨ penv.chk.Fails) ∧ C51.Small args.format s ∧ Out.close penv o = some (o', ret) ∧ Out.OneFile args.format o' ∧
      o'.proof.format = none ∧ o.error = none ∧ (if er.isSome then code = 0 else r = 0 ∧ code = 20 ∨ r = 1 ∧ code = 10) ∧ (r = 0 ↔ Unsat cs) ∧
      Out.Heard penv o := by
  obtain ⟨h1, h2, h3, h4, h5, f, h6, h7⟩ := h
  obtain ⟨c, q⟩ := configured recip env penv log h2 h3 h4
  obtain ⟨N, out, code, s, o, o', r, er, ret, k1, k2, k3, k4, k5, k6, k7, k8, -, k9, k10, k11⟩ := solveFile_any (he c) log (args := args) h5
    (fun p hp => by rw [h1] at hp; cases hp; rfl) h6 h7 (fun hf => hnet hf c) (logLine log.banner1 ++ logLine log.banner2 ++ logLine log.reading)
  refine ⟨N, out, code, s, o, o', r, er, ret, fun n hn => ?_, k2, k3, k4, k5, k6, k7, k8, k9, k10, k11⟩
  rw [(q n).1, (q n).2, (k1 n hn).1, (k1 n hn).2, h1]
  exact ⟨rfl, rfl⟩

/-- The file made of what is left after dropping the solver. -/
theorem C65.file_any {g : Out.Format} {o o' : Out.Sess} {ret : Out.Ret} (hc : Out.close penv o = some (o', ret)) (h1 : Out.OneFile (some g) o')
    (h2 : o'.proof.format = none) : ∃ x, o'.files = [x] ∧ x.format = g ∧ ∃ bytes, dropped penv (some (.steps g)) o = some (some bytes) := by
  unfold Out.OneFile Out.Proof.file at h1
  rw [h2] at h1
  simp only [List.append_nil, Option.toList] at h1
  obtain ⟨h3, h4⟩ := h1
  obtain ⟨x, hx, hxg⟩ : ∃ x, o'.files = [x] ∧ x.format = g := by
    cases hl : o'.files with
    | nil => rw [hl] at h3; cases h3
    | cons x l =>
      rw [hl] at h3
      cases l with
      | nil => simp only [List.map_cons, List.map_nil, List.cons.injEq, and_true] at h3; exact ⟨x, rfl, h3⟩
      | cons y l => simp at h3
  refine ⟨x, hx, hxg, ?_⟩
  unfold dropped
  rw [hc]
  simp only [hx, List.getLast?_singleton]
  cases g with
  | varisat => exact ⟨_, rfl⟩
  | drat =>
    have : (Drat.output false x.written).isSome := by
      rw [C25.supported]
      intro st hst
      have := h4 x (by rw [hx]; simp) (by rw [hxg]; decide) st hst
      cases st <;> first | rfl | cases this
    obtain ⟨b, hb⟩ := Option.isSome_iff_exists.1 this
    exact ⟨b, by rw [hb]; rfl⟩
  | binaryDrat =>
    have : (Drat.output true x.written).isSome := by
      rw [C25.supported]
      intro st hst
      have := h4 x (by rw [hx]; simp) (by rw [hxg]; decide) st hst
      cases st <;> first | rfl | cases this
    obtain ⟨b, hb⟩ := Option.isSome_iff_exists.1 this
    exact ⟨b, by rw [hb]; rfl⟩

/-- **C65**: whatever writes fail, the program ends. With a verdict, status and output are those of a run without proof. Otherwise
the output says `UNKNOWN`, the status is 0, and a write has failed. -/
theorem C65.verdict_partial (he : ∀ c, (env c).Ok) (recip : Config.F32 → Config.F32) {log : Log} (hl : log.OneLine)
    {kind : ProofKind} {i : Source} {cs : List (List Lit)} (h : args.Solves kind i cs) (hnet : kind = .steps .varisat → ∀ c, NetFits (env c) cs) :
    ∃ N out code file, (∀ n, N ≤ n → runFile recip env penv n log args = some (out, code, file)) ∧
      (code = 0 ∧ verdicts out = [ascii "UNKNOWN"] ∧ ((∃ n, penv.io n = false) ∨ penv.chk.Fails) ∨
        (code = 10 ∧ (∃ τ, cnfSat τ cs) ∨ code = 20 ∧ Unsat cs) ∧ ∀ n, N ≤ n → run recip env n log (args.plain false) = some (out, code)) := by
  have hn : args.format = some .varisat → ∀ c, NetFits (env c) cs := by
    intro hf
    unfold FileArgs.format at hf
    rw [h.1] at hf
    cases kind with
    | lrat b => cases hf
    | steps g => cases hf; exact hnet rfl
  obtain ⟨N, out, code, s, o, o', r, er, ret, k1, k2, k3, k4, k5, k6, k7, k8, k9, k10, k11⟩ := C65.run_any he recip log h hn
  obtain ⟨file, hd⟩ : ∃ file, dropped penv (some kind) o = some file := by
    cases kind with
    | lrat b => unfold dropped; rw [k5]; exact ⟨_, rfl⟩
    | steps g =>
      rw [show args.format = some g by unfold FileArgs.format; rw [h.1]] at k6
      obtain ⟨x, -, -, bytes, hb⟩ := C65.file_any k5 k6 k7
      exact ⟨_, hb⟩
  refine ⟨N, out, code, file, fun n hn => ?_, ?_⟩
  · rw [(k1 n hn).1]; unfold finish; rw [hd]
  cases er with
  | some y =>
    have k9 : code = 0 := k9
    subst k9
    obtain ⟨-, -, v⟩ := C48.status_partial hl (k1 N (Nat.le_refl _)).2
    refine .inl ⟨rfl, ?_, k3 rfl⟩
    obtain ⟨v1, v2, v3⟩ := C48.status_partial hl (k1 N (Nat.le_refl _)).2
    rcases v3 with ⟨-, v3 | ⟨-, v3⟩⟩ | ⟨v3, -⟩ | v3 | v3
    · cases v3
    · have v3 : args.optionHelp = true := v3
      rw [h.2.1] at v3; cases v3
    · exact v3
    · exact absurd (v1.2 v3) (by decide)
    · exact absurd (v2.2 v3) (by decide)
  | none =>
    refine .inr ⟨?_, fun n hn => (k1 n hn).2⟩
    rcases k9 with ⟨hr, rfl⟩ | ⟨rfl, rfl⟩
    · exact .inr ⟨rfl, k10.1 hr⟩
    · refine .inl ⟨rfl, ?_⟩
      by_contra hno
      exact absurd (k10.2 fun τ hτ => hno ⟨τ, hτ⟩) (by decide)

/-- **C65**: if there is a verdict, a DRAT file is complete, also if a later write fails. -/
theorem C65.drat (he : ∀ c, (env c).Ok) (recip : Config.F32 → Config.F32) (log : Log)
    {g : Out.Format} (hg : g ≠ .varisat) {i : Source} {cs : List (List Lit)} (h : args.Solves (.steps g) i cs) :
    ∃ N out code bytes, (∀ n, N ≤ n → runFile recip env penv n log args = some (out, code, some bytes)) ∧
      (code = 0 ∨ (code = 10 ∨ code = 20) ∧ ∃ lines, (if g = .binaryDrat then readBinaryDrat else readDrat) bytes = some lines ∧
        Valid (cs.map ints) lines ∧ (Refutation (cs.map ints) lines ↔ code = 20)) := by
  have hfm : args.format = some g := by unfold FileArgs.format; rw [h.1]
  obtain ⟨N, out, code, s, o, o', r, er, ret, k1, k2, k3, k4, k5, k6, k7, k8, k9, k10, k11⟩ := C65.run_any he recip log h
    (fun hf => absurd (Option.some.inj (hfm.symm.trans hf)) hg)
  rw [hfm] at k2 k4 k6
  obtain ⟨x, hx, hxg, bytes, hb⟩ := C65.file_any k5 k6 k7
  refine ⟨N, out, code, bytes, fun n hn => by rw [(k1 n hn).1]; unfold finish; rw [hb], ?_⟩
  cases er with
  | some y => exact .inl k9
  | none =>
    have xj := k2 rfl
    have hbf : before ((cs.map fun c => (Call.addClause c, ([] : List Nat))) ++ [(.solve, [r])]) = cs.map fun c => (.addClause c, []) := by
      rw [before_snoc (.inr rfl), before_of (clauses_noSolve cs)]
    have hasm := (C59.oneShot (cs := cs) (.inr ⟨[r], rfl⟩)).noAsm
    obtain ⟨lines, q1, q2, q3, q4⟩ := C65.written penv.chk.lenient_accepting hg xj hasm k4 (by rw [hbf]; exact plain_clauses cs) k8
    rw [hbf, added_clauses] at q3 q4
    have hfo : o.proof.format = some g := by
      have l : Limits (some g) s := ⟨k4.1, k4.2, xj.exec.fine_of_noAsm hasm⟩
      obtain ⟨-, -, s0, -, hF, -⟩ := xj.follows penv.chk.lenient_accepting l
      exact (hF.keep k8).1
    obtain ⟨y, w1, w2, w3⟩ := Out.close_written hg hfo k8 k5
    obtain ⟨bytes', u1, u2⟩ := q1 _ w3
    have : bytes' = bytes := by
      unfold dropped at hb
      rw [k5] at hb
      simp only [w1, List.getLast?_concat] at hb
      cases g with
      | varisat => exact absurd rfl hg
      | drat => simp only [reduceCtorEq, decide_false] at u1; rw [u1] at hb; simpa using hb
      | binaryDrat => simp only [decide_true] at u1; rw [u1] at hb; simpa using hb
    subst this
    have hc : code = 10 ∨ code = 20 := by
      rcases k9 with ⟨-, rfl⟩ | ⟨-, rfl⟩ <;> simp
    refine .inr ⟨hc, lines, u2, q3, fun hr => ?_, fun hcode => ?_⟩
    · rcases k9 with ⟨-, k9⟩ | ⟨k9, -⟩
      · exact k9
      · exfalso
        subst k9
        refine absurd (k10.2 fun τ hτ => ?_) (by decide)
        refine absurd (C59.sat_ints hτ) (C59.sound hr (fun c hc => ?_) q2 _)
        obtain ⟨d, -, rfl⟩ := List.mem_map.1 hc
        exact C59.zero_ints d
    · rcases k9 with ⟨rfl, -⟩ | ⟨-, rfl⟩
      · exact q4 ((C52.answer xj.exec hasm).2 rfl)
      · cases hcode

/-- **C65**: if there is a verdict, the LRAT writer has got a complete proof. The file has all of it, or the target has failed after
the last step: then it lacks a part at the end, no larger than the buffer and the end of a line. -/
theorem C65.lrat_partial (hproc : penv.chk.hasProc = true) {binary : Bool} (hw : penv.chk.proc = Lrat.Io.accepts penv.lrat binary)
    (he : ∀ c, (env c).Ok) (recip : Config.F32 → Config.F32) (log : Log)
    {i : Source} {cs : List (List Lit)} (h : args.Solves (.lrat binary) i cs) (hcl : ¬ Spec.LratCheck.Clash ((cs.map ints).dropLast)) :
    ∃ N out code file, (∀ n, N ≤ n → runFile recip env penv n log args = some (out, code, file)) ∧
      (code = 0 ∨ (code = 10 ∨ code = 20) ∧ ∃ data bytes lines, file = some data ∧ Varisat.C62.read binary bytes = some lines ∧
        data <+: bytes ∧ bytes.length ≤ data.length + (8192 + 2) ∧
        (∃ n, (∀ k, k < n → ¬ penv.lrat.FailsAt k) ∧ (data = bytes ∨ ∃ k, n ≤ k ∧ penv.lrat.FailsAt k)) ∧
        Spec.LratCheck.Valid (Spec.LratCheck.start (cs.map ints)) (lines.flatMap Line.events) ∧
        (code = 20 → [] ∉ cs → Spec.LratCheck.Empties (lines.flatMap Line.events))) := by
  have hfm : args.format = none := by unfold FileArgs.format; rw [h.1]
  have hck : args.checks = true := by unfold FileArgs.checks; rw [h.1]
  obtain ⟨N, out, code, s, o, o', r, er, ret, k1, k2, k3, k4, k5, k6, k7, k8, k9, k10, k11⟩ := C65.run_any he recip log h
    (fun hf => by rw [hfm] at hf; cases hf)
  refine ⟨N, out, code, _, fun n hn => by rw [(k1 n hn).1]; unfold finish dropped; rw [k5], ?_⟩
  cases er with
  | some y => exact .inl k9
  | none =>
    have xj := k2 rfl
    rw [hfm] at xj k4
    rw [hck] at xj
    have l : Solver.Limits none s := ⟨k4.1, k4.2, xj.exec.fine_of_noAsm (Solver.C59.oneShot (.inr ⟨[r], rfl⟩)).noAsm⟩
    obtain ⟨-, -, s0, -, hF, -⟩ := xj.follows penv.chk.lenient_accepting l
    obtain ⟨q1, q2⟩ := hF.keep k8
    obtain ⟨K, hK⟩ := Option.isSome_iff_exists.1 q2
    obtain ⟨K', hK', hout⟩ := close_out q1 k8 hK k5
    obtain ⟨lines, w1, w2, w3⟩ := Solver.C63.file_partial (env := penv.lenient) hproc xj (clauses_noSolve cs) (plain_clauses cs) k4
      (by rw [added_clauses]; exact hcl) hK binary
    rw [added_clauses] at w2 w3
    have k9 : r = 0 ∧ code = 20 ∨ r = 1 ∧ code = 10 := k9
    have hacc : Lrat.Io.accepts penv.lrat binary K.out = true := by
      rcases k11 K hK hproc with q | q
      · rw [q]; rfl
      · rw [← hw]; exact q
    obtain ⟨v1, v2, v3⟩ := Lrat.C69.kept hacc
    refine .inr ⟨?_, _, _, lines, by rw [hK', Option.map_some, hout], w1, v1, v2, v3, w2, fun hc hne => w3 (clauses_noAsm cs) ?_ hne⟩
    · rcases k9 with ⟨-, rfl⟩ | ⟨-, rfl⟩ <;> simp
    · rcases k9 with ⟨hr, -⟩ | ⟨-, rfl⟩
      · exact hr
      · cases hc

/-! ### Concrete cases -/

/-- One write fails. -/
def C65.failing (k : Nat) : Out.Env := { Solver.Sample.penv with io := fun n => n ≠ k }

/-- The hypotheses of `C65.verdict_partial` and `C65.drat`, and what happens if the sixth operation fails (there is no verdict), or
the ninth, which comes after the verdict. -/
example : let a := C64.sample (.steps .drat) "1 2 0 1 -2 0 -1 2 0 -1 -2 0"
    let go := fun k => runFile id (fun _ => Solver.Sample.env) (C65.failing k) 30 {} a
    a.Solves (.steps .drat) ⟨[ascii "1 2 0 1 -2 0 -1 2 0 -1 -2 0"], false⟩ (litsOf [[1, 2], [1, -2], [-1, 2], [-1, -2]]) ∧
    (∀ k, Accepting (C65.failing k).chk) ∧ Solver.Sample.env.Ok ∧ Log.OneLine {} ∧
    go 5 = some (ascii "s UNKNOWN\n", 0, some (ascii "1 0\n")) ∧ go 8 = some (ascii "s UNSATISFIABLE\n", 20, some (ascii "1 0\n2 0\n0\n")) :=
  ⟨C64.solves (by decide +kernel), fun _ => Solver.Sample.penv_accepting, Solver.Sample.env_ok, Log.quiet_oneLine, by decide +kernel, by decide +kernel⟩

/-- The hypotheses of `C65.verdict_partial` for a processor that fails before the last step, and one that does not. -/
example : let a := C64.sample (.lrat false) "1 2 0 1 -2 0 -1 2 0 -1 -2 0"
    let go := fun k => runFile id (fun _ => Solver.Sample.env) (Solver.Sample.rejecting k) 30 {} a
    a.Solves (.lrat false) ⟨[ascii "1 2 0 1 -2 0 -1 2 0 -1 -2 0"], false⟩ (litsOf [[1, 2], [1, -2], [-1, 2], [-1, -2]]) ∧
    (∀ k, (Solver.Sample.rejecting k).chk.hasProc = true ∧ (Solver.Sample.rejecting k).chk.Fails) ∧
    go 8 = some (ascii "s UNKNOWN\n", 0, none) ∧ go 9 = some (ascii "s UNSATISFIABLE\n", 20, some (ascii "5 1 0 1 2 0\n6 2 0 5 3 0\n7 0 5 6 4 0\n")) :=
  ⟨C64.solves (by decide +kernel), fun k => ⟨rfl, .inl ⟨rfl, List.replicate (k + 1) (.model []), by simp [Solver.Sample.rejecting]⟩⟩,
    by decide +kernel, by decide +kernel⟩

/-- Native files: if the write of the end marker fails, the program still reports a verdict with status 20, and the file is rejected by
`varisat --check`. -/
theorem C65.marker_lost : ∃ bytes cout, runFile id (fun _ => Solver.Sample.env) (C65.failing 9) 30 {}
      (C64.sample (.steps .varisat) "1 2 0 1 -2 0 -1 2 0 -1 -2 0") = some (ascii "s UNSATISFIABLE\n", 20, some bytes) ∧
    runCheck Demo.env {} { input := some ⟨[ascii "1 2 0 1 -2 0 -1 2 0 -1 -2 0"], false⟩, proof := some bytes, fill := fun _ => 0 } = some (cout, 1) :=
  ⟨[5, 1, 1, 1, 1, 1, 5, 3, 3, 1, 3, 3, 27, 17, 17, 3, 1, 5, 137, 154, 3, 19, 3, 5, 154, 3, 17, 1, 3, 137], ascii "t ADD 4 CLAUSES \nt UNSAT\ns NOT VERIFIED\n", by decide +kernel, by decide +kernel⟩

/-- The LRAT writer as the processor. -/
def C65.disk (t : Lrat.Target) : Out.Env :=
  { Solver.Sample.penv with chk := { Solver.Sample.penv.chk with hasProc := true, proc := Lrat.Io.accepts t false }, lrat := t }

/-- The hypotheses of `C65.lrat_partial`, and the file for targets that take three bytes at each call: all of them, and one that fails
at the third call. -/
example : let a := C64.sample (.lrat false) "1 2 0 1 -2 0 -1 2 0 -1 -2 0"
    let go := fun t => runFile id (fun _ => Solver.Sample.env) (C65.disk t) 30 {} a
    a.Solves (.lrat false) ⟨[ascii "1 2 0 1 -2 0 -1 2 0 -1 -2 0"], false⟩ (litsOf [[1, 2], [1, -2], [-1, 2], [-1, -2]]) ∧
    (∀ t, (C65.disk t).chk.hasProc = true ∧ (C65.disk t).chk.proc = Lrat.Io.accepts (C65.disk t).lrat false) ∧
    ¬ Spec.LratCheck.Clash (((litsOf [[1, 2], [1, -2], [-1, 2], [-1, -2]]).map ints).dropLast) ∧
    go ⟨fun _ => some 3, fun _ => true⟩ = some (ascii "s UNSATISFIABLE\n", 20, some (ascii "5 1 0 1 2 0\n6 2 0 5 3 0\n7 0 5 6 4 0\n")) ∧
    go ⟨fun k => if k = 2 then none else some 3, fun _ => true⟩ = some (ascii "s UNSATISFIABLE\n", 20, some (ascii "5 1 0 ")) :=
  ⟨C64.solves (by decide +kernel), fun _ => ⟨rfl, rfl⟩, Solver.C63.no_clash (by decide +kernel), by decide +kernel, by decide +kernel⟩

/-- LRAT files: on a full disk the program reports a verdict with status 20, and the file is empty; this is not a refutation. The
writer is not flushed before the verdict (`main.rs:178-197`). -/
theorem C65.lrat_lost : runFile id (fun _ => Solver.Sample.env) (C65.disk .full) 30 {} (C64.sample (.lrat false) "1 2 0 1 -2 0 -1 2 0 -1 -2 0") =
      some (ascii "s UNSATISFIABLE\n", 20, some []) ∧
    ∀ lines, Varisat.C62.read false [] = some lines → ¬ Spec.LratCheck.Empties (lines.flatMap Line.events) := by
  refine ⟨by decide +kernel, fun lines h => ?_⟩
  have e : Varisat.C62.read false [] = some [] := by decide +kernel
  rw [e] at h
  cases h
  rintro ⟨_, _, h⟩
  simp at h

end Varisat.Cli
