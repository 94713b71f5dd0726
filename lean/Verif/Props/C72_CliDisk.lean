import Verif.Proof.CliNative
import Verif.Props.C65_FailingWrites
/-!
# C72: no verdict without its DRAT file on the disk

The command line tool with the `BufWriter` of its proof file: the file may take only a part of the bytes offered and may fail at any
call of `write` or `flush` (`Dev.target`). With a verdict, the bytes of a DRAT file are in the file, not only in the buffer.

For native files this fails for the end marker (`C72.marker_lost`), which is written when the solver is dropped. Nothing else can be
missing (`C72.native_partial`).
-/
namespace Varisat.Cli
open Solver Api
open Checker (Accepting ints)
open Checker.Told (Talks)
open Spec.Lrat (readDrat readBinaryDrat Line.events)
open Spec.Drat (Valid Refutation)
open Out.Buf (Dev)

variable {α : Type} [LinearOrder α] {env : Config.SolverConfig → Solver.Env α} {d : Dev} {args : FileArgs}

/-- Every run is a run of `CliFile` for some results of the I/O operations, with the same output and status; with a verdict, a file
that is not a native one is the same, too. -/
theorem C72.refines (hd : d.Ok) (recip : Config.F32 → Config.F32) (n : Nat) (log : Log) (args : FileArgs) :
    ∃ penv : Out.Env, penv.chk = d.chk ∧ penv.lrat = d.lrat ∧
      (runDisk recip env d n log args = none ∧ runFile recip env penv n log args = none ∨
        ∃ out code file file', runDisk recip env d n log args = some (out, code, file) ∧ runFile recip env penv n log args = some (out, code, file') ∧
          (code = 10 ∨ code = 20 → args.format ≠ some .varisat → file = file')) := by
  obtain ⟨penv, h1, h2, h3⟩ := runDisk_alike hd recip env n log args
  refine ⟨penv, h1, h2, ?_⟩
  rcases h : runDisk recip env d n log args with _ | ⟨out, code, file⟩
  · rw [h] at h3; exact .inl ⟨rfl, h3⟩
  · rw [h] at h3
    obtain ⟨file', k1, k2, k3⟩ := h3
    exact .inr ⟨out, code, file, file', rfl, k1, k3⟩

/-- The common part: enough fuel for all targets and all environments, and the environment that has the results of the target. -/
theorem C72.settled (hd : d.Ok) (he : ∀ c, (env c).Ok) (recip : Config.F32 → Config.F32) (log : Log)
    {kind : ProofKind} {i : Source} {cs : List (List Lit)} (h : args.Solves kind i cs) :
    ∃ (N : Nat) (penv : Out.Env), penv.chk = d.chk ∧ penv.lrat = d.lrat ∧ Alike args (runDisk recip env d N log args) (runFile recip env penv N log args) ∧
      ∀ n, N ≤ n → runDisk recip env d n log args = runDisk recip env d N log args ∧
        ∀ penv, runFile recip env penv n log args = runFile recip env penv N log args := by
  obtain ⟨h1, h2, ⟨vs, q1, q2⟩, h4, h5, f, h6, h7⟩ := h
  have q1 : args.configs = vs.map some := q1
  have hm : mergeConfigs {} args.configs = some (vs.foldl Config.Update.merge {}) := mergeConfigs_iff.2 ⟨vs, q1, rfl⟩
  rcases Config.C43.solver (recip := recip) .new (vs.foldl Config.Update.merge {}) with ⟨hr, f, k⟩ | ⟨hr, c, k, _⟩
  · exact absurd q2 hr
  obtain ⟨N, hN⟩ := fuel (he c.config) log (args := args) h6 h7
  obtain ⟨penv, k1, k2, k3⟩ := runDisk_alike hd recip env N log args
  refine ⟨N, penv, k1, k2, k3, fun n hn => ⟨?_, fun penv => ?_⟩⟩
  · unfold runDisk
    simp only [h2, Bool.false_eq_true, if_false, hm, k, h4]
    exact (hN n hn).2 d hd _
  · unfold runFile
    simp only [h2, Bool.false_eq_true, if_false, hm, k, h4]
    exact (hN n hn).1 penv _

/-- A result of `CliFile` for every environment with enough fuel is a result for every target. -/
theorem C72.carry (hd : d.Ok) (he : ∀ c, (env c).Ok) (recip : Config.F32 → Config.F32) (log : Log)
    {kind : ProofKind} {i : Source} {cs : List (List Lit)} (h : args.Solves kind i cs) :
    ∃ penv : Out.Env, penv.chk = d.chk ∧ penv.lrat = d.lrat ∧ ∀ (M : Nat) (out : Bytes) (code : Nat) (file' : Option Bytes),
      (∀ n, M ≤ n → runFile recip env penv n log args = some (out, code, file')) →
      ∃ N file, (∀ n, N ≤ n → runDisk recip env d n log args = some (out, code, file)) ∧ Near file file' ∧
        (code = 10 ∨ code = 20 → args.format ≠ some .varisat → file = file') := by
  obtain ⟨N, penv, h1, h2, h3, h4⟩ := C72.settled hd he recip log h
  refine ⟨penv, h1, h2, fun M out code file' hM => ?_⟩
  have e := (h4 (max N M) (Nat.le_max_left ..)).2 penv
  rw [hM _ (Nat.le_max_right ..)] at e
  rw [← e] at h3
  rcases hx : runDisk recip env d N log args with _ | ⟨out1, code1, file⟩
  · rw [hx] at h3; cases h3
  · rw [hx] at h3
    obtain ⟨file1, k1, k2, k3⟩ := h3
    cases k1
    exact ⟨N, file, fun n hn => (h4 n hn).1.trans hx, k2, k3⟩

/-- The same result as in `CliFile`, if no call fails. What is proved there about runs without errors holds for all such targets. -/
theorem C72.works (hd : d.Ok) (hw : d.Works) (he : ∀ c, (env c).Ok) (recip : Config.F32 → Config.F32) (log : Log)
    {kind : ProofKind} {i : Source} {cs : List (List Lit)} (h : args.Solves kind i cs) (hnet : kind = .steps .varisat → ∀ c, NetFits (env c) cs) :
    ∃ N r, ∀ n, N ≤ n → runDisk recip env d n log args = some r ∧ runFile recip env ⟨fun _ => true, d.chk, d.lrat⟩ n log args = some r := by
  obtain ⟨penv, -, -, hc⟩ := C72.carry hd he recip log h
  have hn : args.format = some .varisat → ∀ c, NetFits (env c) cs := by
    intro hf
    unfold FileArgs.format at hf
    rw [h.1] at hf
    cases kind with
    | lrat b => cases hf
    | steps g => cases hf; exact hnet rfl
  obtain ⟨M, out, code, s, o, o', r, er, ret, k1, -, -, -, k5, k6, k7, -⟩ := C65.run_any (penv := penv) he recip log h hn
  obtain ⟨file, hdr⟩ : ∃ file, dropped penv (some kind) o = some file := by
    cases kind with
    | lrat b => unfold dropped; rw [k5]; exact ⟨_, rfl⟩
    | steps g =>
      rw [show args.format = some g by unfold FileArgs.format; rw [h.1]] at k6
      obtain ⟨x, -, -, bytes, hb⟩ := C65.file_any k5 k6 k7
      exact ⟨_, hb⟩
  obtain ⟨N, file', q, -⟩ := hc M out code file fun n hn => by rw [(k1 n hn).1]; unfold finish; rw [hdr]
  exact ⟨N, _, fun n hn => ⟨q n hn, runDisk_works hd hw (q n hn)⟩⟩

/-- **C72**: whatever the file does, the program ends. With a verdict, status and output are those of a run without proof, and right.
Otherwise the output says `UNKNOWN`, the status is 0, and the file or the processor has failed. -/
theorem C72.verdict_partial (hd : d.Ok) (he : ∀ c, (env c).Ok) (recip : Config.F32 → Config.F32) {log : Log} (hl : log.OneLine)
    {kind : ProofKind} {i : Source} {cs : List (List Lit)} (h : args.Solves kind i cs) (hnet : kind = .steps .varisat → ∀ c, NetFits (env c) cs) :
    ∃ N out code file, (∀ n, N ≤ n → runDisk recip env d n log args = some (out, code, file)) ∧
      (code = 0 ∧ verdicts out = [ascii "UNKNOWN"] ∧ (¬ d.Works ∨ d.chk.Fails) ∨
        (code = 10 ∧ (∃ τ, cnfSat τ cs) ∨ code = 20 ∧ Unsat cs) ∧ ∀ n, N ≤ n → run recip env n log (args.plain false) = some (out, code)) := by
  by_cases hw : d.Works
  · obtain ⟨M, r, hr⟩ := C72.works hd hw he recip log h hnet
    obtain ⟨N, out, code, file, k1, k2⟩ := C65.verdict_partial (penv := ⟨fun _ => true, d.chk, d.lrat⟩) he recip hl h hnet
    have e := (hr (max M N) (Nat.le_max_left ..)).2
    rw [k1 _ (Nat.le_max_right ..)] at e
    cases e
    refine ⟨max M N, out, code, file, fun n hn => (hr n (by omega)).1, ?_⟩
    rcases k2 with ⟨g1, g2, g3⟩ | ⟨g1, g2⟩
    · refine .inl ⟨g1, g2, ?_⟩
      rcases g3 with ⟨n, g3⟩ | g3
      · cases g3
      · exact .inr g3
    · exact .inr ⟨g1, fun n hn => g2 n (by omega)⟩
  · obtain ⟨penv, h1, h2, hc⟩ := C72.carry hd he recip log h
    obtain ⟨M, out, code, file', k1, k2⟩ := C65.verdict_partial (penv := penv) he recip hl h hnet
    obtain ⟨N, file, q, -⟩ := hc M out code file' k1
    refine ⟨max M N, out, code, file, fun n hn => q n (by omega), ?_⟩
    rcases k2 with ⟨g1, g2, g3⟩ | ⟨g1, g2⟩
    · exact .inl ⟨g1, g2, .inl hw⟩
    · exact .inr ⟨g1, fun n hn => g2 n (by omega)⟩

/-- **C72**: with a verdict, the bytes in a DRAT file are a valid proof for the clauses of the input, and a refutation exactly with
status 20; also if the file fails later. -/
theorem C72.drat (hd : d.Ok) (he : ∀ c, (env c).Ok) (recip : Config.F32 → Config.F32) (log : Log)
    {g : Out.Format} (hg : g ≠ .varisat) {i : Source} {cs : List (List Lit)} (h : args.Solves (.steps g) i cs) :
    ∃ N out code bytes, (∀ n, N ≤ n → runDisk recip env d n log args = some (out, code, some bytes)) ∧
      (code = 0 ∨ (code = 10 ∨ code = 20) ∧ ∃ lines, (if g = .binaryDrat then readBinaryDrat else readDrat) bytes = some lines ∧
        Valid (cs.map ints) lines ∧ (Refutation (cs.map ints) lines ↔ code = 20)) := by
  have hfm : args.format = some g := by unfold FileArgs.format; rw [h.1]
  obtain ⟨penv, h1, h2, hc⟩ := C72.carry hd he recip log h
  obtain ⟨M, out, code, bytes', k1, k2⟩ := C65.drat (penv := penv) he recip log hg h
  obtain ⟨N, file, q1, q2, q3⟩ := hc M out code (some bytes') k1
  cases file with
  | none => exact absurd q2 id
  | some bytes =>
    refine ⟨N, out, code, bytes, q1, k2.imp id ?_⟩
    rintro ⟨c1, c2⟩
    cases q3 c1 (by rw [hfm]; exact fun x => hg (Option.some.inj x))
    exact ⟨c1, c2⟩

/-- LRAT files, as in `C65.lrat_partial`. -/
theorem C72.lrat_partial (hd : d.Ok) (hproc : d.chk.hasProc = true) {binary : Bool} (hw : d.chk.proc = Lrat.Io.accepts d.lrat binary)
    (he : ∀ c, (env c).Ok) (recip : Config.F32 → Config.F32) (log : Log)
    {i : Source} {cs : List (List Lit)} (h : args.Solves (.lrat binary) i cs) (hcl : ¬ Spec.LratCheck.Clash ((cs.map ints).dropLast)) :
    ∃ N out code file, (∀ n, N ≤ n → runDisk recip env d n log args = some (out, code, file)) ∧
      (code = 0 ∨ (code = 10 ∨ code = 20) ∧ ∃ data bytes lines, file = some data ∧ Varisat.C62.read binary bytes = some lines ∧
        data <+: bytes ∧ bytes.length ≤ data.length + (8192 + 2) ∧
        (∃ n, (∀ k, k < n → ¬ d.lrat.FailsAt k) ∧ (data = bytes ∨ ∃ k, n ≤ k ∧ d.lrat.FailsAt k)) ∧
        Spec.LratCheck.Valid (Spec.LratCheck.start (cs.map ints)) (lines.flatMap Line.events) ∧
        (code = 20 → [] ∉ cs → Spec.LratCheck.Empties (lines.flatMap Line.events))) := by
  have hfm : args.format = none := by unfold FileArgs.format; rw [h.1]
  obtain ⟨penv, h1, h2, hc⟩ := C72.carry hd he recip log h
  obtain ⟨M, out, code, file', k1, k2⟩ := C65.lrat_partial (penv := penv) (by rw [h1]; exact hproc) (by rw [h1, h2]; exact hw) he recip log h hcl
  obtain ⟨N, file, q1, q2, q3⟩ := hc M out code file' k1
  refine ⟨N, out, code, file, q1, k2.imp id ?_⟩
  rintro ⟨c1, c2⟩
  cases q3 c1 (by rw [hfm]; exact nofun)
  rw [h2] at c2
  exact ⟨c1, c2⟩

/-- Native files: with a verdict, all steps are in the file. What may be missing is a part of the end marker, before which the number of
hash bits may change; with it `varisat --check` verifies the file for the same input and reports the answer. -/
theorem C72.native_partial (hd : d.Ok) (ha : Accepting d.chk) (he : ∀ c, (env c).Ok) (recip : Config.F32 → Config.F32) {log : Log} (hl : log.OneLine)
    {i : Source} {cs : List (List Lit)} (h : args.Solves (.steps .varisat) i cs) (ht : ∀ c ∈ cs, ∀ l ∈ c, l.neg ∉ c) (hnet : ∀ c, NetFits (env c) cs) :
    ∃ N out code file, (∀ n, N ≤ n → runDisk recip env d n log args = some (out, code, file)) ∧
      (code = 0 ∧ ¬ d.Works ∨ (code = 10 ∨ code = 20) ∧ ∃ data bytes last, file = some bytes ∧ data <+: bytes ∧
        (last = [.end_] ∨ ∃ k, last = [.changeHashBits k, .end_]) ∧ bytes <+: data ++ last.flatMap Fmt.writeStep ∧
        ∀ (cenv : Checker.Env) (clog : Log) (fill : Nat → Nat), Talks cenv → clog.OneLine → ∃ cout,
          runCheck cenv clog { input := some i, proof := some (data ++ last.flatMap Fmt.writeStep), fill } = some (cout, 0) ∧
          verdicts cout = [ascii "VERIFIED"] ∧ (ascii "t SAT" ∈ outLines cout ↔ code = 10) ∧ (ascii "t UNSAT" ∈ outLines cout → code = 20) ∧
          (code = 20 → [] ∉ cs → ascii "t UNSAT" ∈ outLines cout)) := by
  obtain ⟨M, out, code, file, k1, k2⟩ := C72.verdict_partial hd he recip hl h fun _ => hnet
  obtain ⟨N, out2, code2, full, q1, -, q2⟩ := C64.native_partial (penv := working d) ha (fun _ => rfl) he recip log h ht hnet
  refine ⟨max M N, out, code, file, fun n hn => k1 n (by omega), ?_⟩
  rcases k2 with ⟨c1, -, c2⟩ | ⟨c1, -⟩
  · refine .inl ⟨c1, c2.resolve_right fun hf => ?_⟩
    rcases hf with ⟨hp, o, ho⟩ | ⟨hp, t, ho⟩
    · rw [ha.proc hp o] at ho; cases ho
    · rw [ha.transcript hp t] at ho; cases ho
  · have hc : code = 10 ∨ code = 20 := c1.imp (·.1) (·.1)
    refine .inr ⟨hc, ?_⟩
    have e1 := k1 _ (Nat.le_max_left M N)
    have e2 := (q1 _ (Nat.le_max_right M N)).1
    obtain ⟨h1, h2, ⟨vs, g1, g2⟩, h4, h5, f, h6, h7⟩ := h
    have g1 : args.configs = vs.map some := g1
    have hm : mergeConfigs {} args.configs = some (vs.foldl Config.Update.merge {}) := mergeConfigs_iff.2 ⟨vs, g1, rfl⟩
    rcases Config.C43.solver (recip := recip) .new (vs.foldl Config.Update.merge {}) with ⟨hr, f, k⟩ | ⟨hr, c, k, _⟩
    · exact absurd g2 hr
    unfold runDisk at e1
    unfold runFile at e2
    simp only [h2, Bool.false_eq_true, if_false, hm, k, h4] at e1 e2
    obtain ⟨data, bytes, last, z1, z2, z3, z4, z5⟩ := solveDisk_native hd h1 hc e1 e2
    cases z5
    exact ⟨data, bytes, last, z1, z3, z2, z4, q2⟩

/-! ### Concrete cases -/

/-- A proof file, written one byte at a time. -/
def C72.disk (t : Lrat.Target) : Dev where
  target _ := t
  split bs := bs.map fun b => [b]
  chk := Solver.Sample.penv.chk

theorem C72.disk_ok (t : Lrat.Target) : (C72.disk t).Ok := fun bs => by
  show (bs.map fun b => [b]).flatten = bs
  induction bs with
  | nil => rfl
  | cons b bs ih => rw [List.map_cons, List.flatten_cons, ih]; rfl

/-- A file that takes two bytes at each call, and nothing from the `k`-th call on. -/
def C72.upTo (k : Nat) : Lrat.Target := ⟨fun n => if n < k then some 2 else none, fun _ => true⟩

/-- The hypotheses of `C72.verdict_partial` and `C72.drat`, and what happens if the disk is full after six bytes (there is no verdict) or
after ten, when the whole proof is written. -/
example : let a := C64.sample (.steps .drat) "1 2 0 1 -2 0 -1 2 0 -1 -2 0"
    let go := fun k => runDisk id (fun _ => Solver.Sample.env) (C72.disk (C72.upTo k)) 30 {} a
    a.Solves (.steps .drat) ⟨[ascii "1 2 0 1 -2 0 -1 2 0 -1 -2 0"], false⟩ (litsOf [[1, 2], [1, -2], [-1, 2], [-1, -2]]) ∧
    (∀ k, (C72.disk (C72.upTo k)).Ok ∧ ¬ (C72.disk (C72.upTo k)).Works) ∧ Solver.Sample.env.Ok ∧ Log.OneLine {} ∧
    go 3 = some (ascii "s UNKNOWN\n", 0, some (ascii "1 0\n2 ")) ∧ go 5 = some (ascii "s UNSATISFIABLE\n", 20, some (ascii "1 0\n2 0\n0\n")) :=
  ⟨C64.solves (by decide +kernel), fun k => ⟨C72.disk_ok _, fun h => (h 0 k).1 (.inl (by simp [C72.disk, C72.upTo]))⟩, Solver.Sample.env_ok, Log.quiet_oneLine,
    by decide +kernel, by decide +kernel⟩

/-- The hypotheses of `C72.works`. -/
example : (C72.disk ⟨fun _ => some 2, fun _ => true⟩).Ok ∧ (C72.disk ⟨fun _ => some 2, fun _ => true⟩).Works ∧
    runDisk id (fun _ => Solver.Sample.env) (C72.disk ⟨fun _ => some 2, fun _ => true⟩) 30 {} (C64.sample (.steps .drat) "1 2 0 1 -2 0 -1 2 0 -1 -2 0") =
      some (ascii "s UNSATISFIABLE\n", 20, some (ascii "1 0\n2 0\n0\n")) :=
  ⟨C72.disk_ok _, fun _ _ => ⟨(by rintro (h | h) <;> cases h), rfl⟩, by decide +kernel⟩

/-- The hypotheses of `C72.lrat_partial`. -/
example : let e := C65.disk ⟨fun k => if k = 2 then none else some 3, fun _ => true⟩
    let d : Dev := { C72.disk .all with chk := e.chk, lrat := e.lrat }
    d.Ok ∧ d.chk.hasProc = true ∧ d.chk.proc = Lrat.Io.accepts d.lrat false ∧
    runDisk id (fun _ => Solver.Sample.env) d 30 {} (C64.sample (.lrat false) "1 2 0 1 -2 0 -1 2 0 -1 -2 0") =
      some (ascii "s UNSATISFIABLE\n", 20, some (ascii "5 1 0 ")) :=
  ⟨C72.disk_ok .all, rfl, rfl, by decide +kernel⟩

/-- The hypotheses of `C72.native_partial`, with a file that fails after the verdict. -/
example : let cs := litsOf [[1, 2], [1, -2], [-1, 2], [-1, -2]]
    (C72.disk (C72.upTo 16)).Ok ∧ ¬ (C72.disk (C72.upTo 16)).Works ∧ Accepting (C72.disk (C72.upTo 16)).chk ∧
    (C64.sample (.steps .varisat) "1 2 0 1 -2 0 -1 2 0 -1 -2 0").Solves (.steps .varisat) ⟨[ascii "1 2 0 1 -2 0 -1 2 0 -1 -2 0"], false⟩ cs ∧
    (∀ c ∈ cs, ∀ l ∈ c, l.neg ∉ c) ∧ NetFits Solver.Sample.env cs ∧ Talks Solver.Sample.penv.chk :=
  ⟨C72.disk_ok _, fun h => (h 0 16).1 (.inl rfl), Solver.Sample.penv_accepting, C64.solves (by decide +kernel), by decide, C64.fits (by decide +kernel), penv_talks⟩

/-- Native files: on a disk that is full after the last step, the program reports a verdict with status 20, a part of the end marker is
lost, and the file is rejected by `varisat --check`. -/
theorem C72.marker_lost : ∃ bytes cout, runDisk id (fun _ => Solver.Sample.env) (C72.disk (C72.upTo 16)) 30 {}
      (C64.sample (.steps .varisat) "1 2 0 1 -2 0 -1 2 0 -1 -2 0") = some (ascii "s UNSATISFIABLE\n", 20, some bytes) ∧
    runCheck Demo.env {} { input := some ⟨[ascii "1 2 0 1 -2 0 -1 2 0 -1 -2 0"], false⟩, proof := some bytes, fill := fun _ => 0 } = some (cout, 1) :=
  ⟨[5, 1, 1, 1, 1, 1, 5, 3, 3, 1, 3, 3, 27, 17, 17, 3, 1, 5, 137, 154, 3, 19, 3, 5, 154, 3, 17, 1, 3, 137, 0, 70], ascii "t ADD 4 CLAUSES \nt UNSAT\ns NOT VERIFIED\n", by decide +kernel, by decide +kernel⟩

end Varisat.Cli
