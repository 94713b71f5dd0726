import Verif.Proof.CliFile
import Verif.Props.C63_LiveLrat
import Verif.Props.C69_LratWriter
/-!
# C64: the command line tool writes the proof of its answer

`varisat --proof FILE`, with all formats and with or without `--self-check`.

- `C64.answers`: whatever happens to the proof file, the output and the exit status are those of a run without proof in which
  solving may fail. So C48 and C49 say what they mean.
- `C64.same_partial`: if no write fails, they are exactly those of the run without proof. Self checking finds nothing.
- `C64.drat`, `C64.lrat_partial`, `C64.native_partial`: the contents of the file for inputs that can be parsed.

Partial: for the native format there are at most 2^32 clauses at any time, and for the last theorem the steps fit the format
and the input has no tautologies. For LRAT the restriction of C63.
-/
namespace Varisat.Cli
open Solver (St C51.Small)
open Checker (Accepting ints)
open Checker.Told (Talks)
open Spec.Lrat
open Fmt (writeStep)

variable {α : Type} [LinearOrder α] {recip : Config.F32 → Config.F32} {env : Config.SolverConfig → Solver.Env α} {penv : Out.Env} {log : Log}
  {args : FileArgs}

/-- **C64**: for all failures of the proof output. -/
theorem C64.answers {fuel : Nat} {out : Bytes} {code : Nat} {file : Option Bytes}
    (h : runFile recip env penv fuel log args = some (out, code, file)) : ∃ fault, run recip env fuel log (args.plain fault) = some (out, code) :=
  runFile_ok h

/-- The exit status and the answer for a run with a proof file, as C48 and C49 have them. -/
theorem C64.status_partial (he : ∀ c, (env c).Ok) (hl : log.OneLine) {fuel : Nat} {out : Bytes} {code : Nat} {file : Option Bytes}
    (h : runFile recip env penv fuel log args = some (out, code, file)) :
    (code = 10 ↔ verdicts out = [ascii "SATISFIABLE"]) ∧ (code = 20 ↔ verdicts out = [ascii "UNSATISFIABLE"]) ∧
    (code = 10 → ∃ cs ns, InputClauses (args.plain false) cs ∧ values out = [some (ns ++ [0])] ∧ (∀ n ∈ ns, n ≠ 0 ∧ -n ∉ ns) ∧
      ∀ c ∈ cs, ∃ l ∈ c, l.toDimacs ∈ ns) ∧
    (code = 20 → ∃ cs, InputClauses (args.plain false) cs ∧ Unsat cs) := by
  obtain ⟨fault, k⟩ := runFile_ok h
  obtain ⟨h1, h2, -⟩ := C48.status_partial hl k
  refine ⟨h1, h2, fun hc => ?_, fun hc => ?_⟩
  · subst hc; exact C49.satisfiable_partial he hl k (args := args.plain fault)
  · subst hc; exact C49.unsatisfiable he k (args := args.plain fault)

/-- **C64**: if writing and the processors do not fail, the program ends, and the proof file and self checking change nothing
in the output and the exit status. -/
theorem C64.same_partial (ha : Accepting penv.chk) (hio : ∀ n, penv.io n = true) (he : ∀ c, (env c).Ok) (recip : Config.F32 → Config.F32) (log : Log)
    (args : FileArgs) (hnet : args.format = some .varisat → ∀ c i cs, args.input = some i → Taken i cs → NetFits (env c) cs) :
    ∃ N out code file, ∀ n, N ≤ n → runFile recip env penv n log args = some (out, code, file) ∧
      run recip env n log (args.plain false) = some (out, code) := by
  cases hh : args.optionHelp with
  | true => exact ⟨0, help, 0, none, fun n _ => by unfold runFile run; simp only [FileArgs.plain, hh, if_true, and_self]⟩
  | false =>
    cases hm : mergeConfigs {} args.configs with
    | none =>
      exact ⟨0, logLine log.banner1 ++ logLine log.banner2 ++ logLine log.error, 1, none, fun n _ => by
        unfold runFile run; simp only [FileArgs.plain, hh, Bool.false_eq_true, if_false, hm, and_self]⟩
    | some u =>
      rcases Config.C43.solver (recip := recip) .new u with ⟨hr, f, k⟩ | ⟨hr, c, k, _⟩
      · exact ⟨0, logLine log.banner1 ++ logLine log.banner2 ++ logLine log.error, 1, none, fun n _ => by
          unfold runFile run; simp only [FileArgs.plain, hh, Bool.false_eq_true, if_false, hm, k, and_self]⟩
      · cases hin : args.input with
        | none =>
          exact ⟨0, logLine log.banner1 ++ logLine log.banner2 ++ logLine log.reading ++ logLine log.error, 1, none, fun n _ => by
            unfold runFile run; simp only [FileArgs.plain, hh, Bool.false_eq_true, if_false, hm, k, hin, and_self]⟩
        | some i =>
          obtain ⟨N, out, code, file, q⟩ := solveFile_total ha hio (he c.config) log args i (fun hf cs ht => hnet hf _ i cs hin ht)
            (logLine log.banner1 ++ logLine log.banner2 ++ logLine log.reading)
          refine ⟨N, out, code, file, fun n hn => ⟨?_, ?_⟩⟩
          · unfold runFile
            simp only [hh, Bool.false_eq_true, if_false, hm, k, hin]
            exact (q n hn).1
          · unfold run
            simp only [FileArgs.plain, hh, Bool.false_eq_true, if_false, hm, k, hin]
            exact (q n hn).2

/-- Nothing fails, and the input has the clauses `cs`. -/
def FileArgs.Solves (a : FileArgs) (kind : ProofKind) (i : Source) (cs : List (List Lit)) : Prop :=
  a.proof = some (kind, true) ∧ a.optionHelp = false ∧ (a.plain false).Configured ∧ a.input = some i ∧ i.fails = false ∧
    ∃ f, DimacsParser.parse [i.chunks.flatten] = .ok f ∧ f.iter = some cs

/-- The common part of the following theorems. -/
theorem C64.run_good (ha : Accepting penv.chk) (hio : ∀ n, penv.io n = true) (he : ∀ c, (env c).Ok) (recip : Config.F32 → Config.F32) (log : Log)
    {kind : ProofKind} {i : Source} {cs : List (List Lit)} (h : args.Solves kind i cs) (hnet : args.format = some .varisat → ∀ c, NetFits (env c) cs) :
    ∃ c N out code s o o' r, (∀ n, N ≤ n → runFile recip env penv n log args = finish penv (some kind) out code o ∧
        run recip env n log (args.plain false) = some (out, code)) ∧
      Solver.Joint penv args.format args.checks s o ((cs.map fun c => (.addClause c, [])) ++ [(.solve, [r])]) ∧ C51.Small args.format s ∧
      Out.close penv o = some (o', .unit) ∧ o.error = none ∧ Reached (env c) cs s ∧ (r = 0 ∧ code = 20 ∨ r = 1 ∧ code = 10) ∧ (r = 0 ↔ Unsat cs) := by
  obtain ⟨h1, h2, h3, h4, h5, f, h6, h7⟩ := h
  obtain ⟨c, q⟩ := configured recip env penv log h2 h3 h4
  obtain ⟨N, out, code, s, o, o', r, k1, k2⟩ := solveFile_good ha hio (he c) log (args := args) h5 (fun p hp => by rw [h1] at hp; cases hp; rfl) h6 h7
    (fun hf => hnet hf c) (logLine log.banner1 ++ logLine log.banner2 ++ logLine log.reading)
  refine ⟨c, N, out, code, s, o, o', r, fun n hn => ?_, k2⟩
  rw [(q n).1, (q n).2 false, (k1 n hn).1, (k1 n hn).2, h1]
  exact ⟨rfl, rfl⟩

/-- **C64**: `--proof-format drat` and `binary-drat`. The program ends with status 10 or 20, which is right, and the file is a
valid DRAT proof for the clauses of the input. It is a refutation exactly with status 20. -/
theorem C64.drat (ha : Accepting penv.chk) (hio : ∀ n, penv.io n = true) (he : ∀ c, (env c).Ok) (recip : Config.F32 → Config.F32) (log : Log)
    {g : Out.Format} (hg : g ≠ .varisat) {i : Source} {cs : List (List Lit)} (h : args.Solves (.steps g) i cs) :
    ∃ N out code bytes lines, (∀ n, N ≤ n → runFile recip env penv n log args = some (out, code, some bytes) ∧
        run recip env n log (args.plain false) = some (out, code)) ∧
      (code = 10 ∧ (∃ τ, cnfSat τ cs) ∨ code = 20 ∧ Unsat cs) ∧
      (if g = .binaryDrat then readBinaryDrat else readDrat) bytes = some lines ∧
      Spec.Drat.Valid (cs.map ints) lines ∧ (Spec.Drat.Refutation (cs.map ints) lines ↔ code = 20) := by
  have hfm : args.format = some g := by unfold FileArgs.format; rw [h.1]
  obtain ⟨c, N, out, code, s, o, o', r, k1, k2, k3, k4, k5, -, k6, k7⟩ := C64.run_good ha hio he recip log h
    (fun hf => absurd (Option.some.inj (hfm.symm.trans hf)) hg)
  rw [hfm] at k2 k3
  obtain ⟨file, lines, q1, q2, ⟨-, bytes, q3, q4⟩, q5, q6⟩ := Solver.C59.solve_once_partial hg k2 (clauses_noSolve cs) (clauses_noAsm cs) k3 (plain_clauses cs) k4
  rw [added_clauses] at q5 q6
  rw [q2] at q3 q4
  have hd : dropped penv (some (.steps g)) o = some (some bytes) := by
    unfold dropped
    rw [k4]
    simp only
    rw [q1, List.getLast?_concat]
    cases g with
    | varisat => exact absurd rfl hg
    | drat => simpa using congrArg (Option.map some) q3
    | binaryDrat => simpa using congrArg (Option.map some) q3
  refine ⟨N, out, code, bytes, lines, fun n hn => ⟨?_, (k1 n hn).2⟩, ?_, q4, q5, q6.trans ?_⟩
  · rw [(k1 n hn).1]
    unfold finish
    rw [hd]
  · rcases k6 with ⟨hr, rfl⟩ | ⟨rfl, rfl⟩
    · exact .inr ⟨rfl, k7.1 hr⟩
    · refine .inl ⟨rfl, ?_⟩
      by_contra hno
      exact absurd (k7.2 fun τ hτ => hno ⟨τ, hτ⟩) (by decide)
  · rcases k6 with ⟨rfl, rfl⟩ | ⟨rfl, rfl⟩ <;> simp

/-- **C64**: `--proof-format lrat` and `clrat`. -/
theorem C64.lrat_partial (ha : Accepting penv.chk) (hproc : penv.chk.hasProc = true) (hio : ∀ n, penv.io n = true) (hlr : ∀ k, ¬ penv.lrat.FailsAt k) (he : ∀ c, (env c).Ok)
    (recip : Config.F32 → Config.F32) (log : Log) {binary : Bool} {i : Source} {cs : List (List Lit)} (h : args.Solves (.lrat binary) i cs)
    (hcl : ¬ Spec.LratCheck.Clash ((cs.map ints).dropLast)) :
    ∃ N out code bytes lines, (∀ n, N ≤ n → runFile recip env penv n log args = some (out, code, some bytes) ∧
        run recip env n log (args.plain false) = some (out, code)) ∧
      (code = 10 ∧ (∃ τ, cnfSat τ cs) ∨ code = 20 ∧ Unsat cs) ∧ Varisat.C62.read binary bytes = some lines ∧
      Spec.LratCheck.Valid (Spec.LratCheck.start (cs.map ints)) (lines.flatMap Line.events) ∧
      (code = 20 → [] ∉ cs → Spec.LratCheck.Empties (lines.flatMap Line.events)) := by
  have hfm : args.format = none := by unfold FileArgs.format; rw [h.1]
  have hck : args.checks = true := by unfold FileArgs.checks; rw [h.1]
  obtain ⟨c, N, out, code, s, o, o', r, k1, k2, k3, k4, k5, -, k6, k7⟩ := C64.run_good ha hio he recip log h (fun hf => by rw [hfm] at hf; cases hf)
  rw [hfm] at k2 k3
  rw [hck] at k2
  have l : Solver.Limits none s := ⟨k3.1, k3.2, k2.exec.fine_of_noAsm (Solver.C59.oneShot (.inr ⟨[r], rfl⟩)).noAsm⟩
  obtain ⟨-, -, s0, -, hF, -⟩ := k2.follows ha l
  obtain ⟨q1, q2⟩ := hF.keep k5
  obtain ⟨K, hK⟩ := Option.isSome_iff_exists.1 q2
  obtain ⟨K', hK', hout⟩ := close_out q1 k5 hK k4
  obtain ⟨lines, w1, w2, w3⟩ := Solver.C63.file_partial hproc k2 (clauses_noSolve cs) (plain_clauses cs) k3 (by rw [added_clauses]; exact hcl) hK binary
  rw [added_clauses] at w2 w3
  refine ⟨N, out, code, _, lines, fun n hn => ⟨?_, (k1 n hn).2⟩, ?_, w1, w2, fun hc hne => w3 (clauses_noAsm cs) ?_ hne⟩
  · rw [(k1 n hn).1]
    unfold finish dropped
    rw [k4]
    simp only [hK', Option.map_some, hout, (Lrat.C69.complete hlr _ _).2]
  · rcases k6 with ⟨hr, rfl⟩ | ⟨rfl, rfl⟩
    · exact .inr ⟨rfl, k7.1 hr⟩
    · refine .inl ⟨rfl, ?_⟩
      by_contra hno
      exact absurd (k7.2 fun τ hτ => hno ⟨τ, hτ⟩) (by decide)
  · rcases k6 with ⟨hr, -⟩ | ⟨-, rfl⟩
    · exact hr
    · cases hc

/-- **C64**: the native format. `varisat --check` with the same input and the file verifies it and reports the answer. -/
theorem C64.native_partial (ha : Accepting penv.chk) (hio : ∀ n, penv.io n = true) (he : ∀ c, (env c).Ok)
    (recip : Config.F32 → Config.F32) (log : Log) {i : Source} {cs : List (List Lit)} (h : args.Solves (.steps .varisat) i cs)
    (ht : ∀ c ∈ cs, ∀ l ∈ c, l.neg ∉ c) (hnet : ∀ c, NetFits (env c) cs) :
    ∃ N out code bytes, (∀ n, N ≤ n → runFile recip env penv n log args = some (out, code, some bytes) ∧
        run recip env n log (args.plain false) = some (out, code)) ∧
      (code = 10 ∧ (∃ τ, cnfSat τ cs) ∨ code = 20 ∧ Unsat cs) ∧
      ∀ (cenv : Checker.Env) (clog : Log) (fill : Nat → Nat), Talks cenv → clog.OneLine → ∃ cout,
        runCheck cenv clog { input := some i, proof := some bytes, fill } = some (cout, 0) ∧ verdicts cout = [ascii "VERIFIED"] ∧
        (ascii "t SAT" ∈ outLines cout ↔ code = 10) ∧ (ascii "t UNSAT" ∈ outLines cout → code = 20) ∧
        (code = 20 → [] ∉ cs → ascii "t UNSAT" ∈ outLines cout) := by
  have hfm : args.format = some .varisat := by unfold FileArgs.format; rw [h.1]
  obtain ⟨c, N, out, code, s, o, o', r, k1, k2, k3, k4, k5, k6', k6, k7⟩ := C64.run_good ha hio he recip log h (fun _ => hnet)
  rw [hfm] at k2 k3
  obtain ⟨-, -, -, -, hi, f, hf, hcs⟩ := h
  have key := fun (cenv : Checker.Env) (hca : Talks cenv) (clog : Log) (hl : clog.OneLine) =>
    C57.verified_partial hca hl hi hf hcs ht k2 (k3.2 rfl) k4
  have hfile : ∃ file, o'.files.getLast? = some file := by
    obtain ⟨file, w, -⟩ := key Solver.Sample.penv.chk penv_talks {} Log.quiet_oneLine
    exact ⟨file, w⟩
  obtain ⟨file, hfile⟩ := hfile
  refine ⟨N, out, code, file.written.flatMap writeStep, fun n hn => ⟨?_, (k1 n hn).2⟩, ?_, fun cenv clog fill hca hl => ?_⟩
  · rw [(k1 n hn).1]
    unfold finish dropped
    rw [k4]
    simp only [hfile]
  · rcases k6 with ⟨hr, rfl⟩ | ⟨rfl, rfl⟩
    · exact .inr ⟨rfl, k7.1 hr⟩
    · refine .inl ⟨rfl, ?_⟩
      by_contra hno
      exact absurd (k7.2 fun τ hτ => hno ⟨τ, hτ⟩) (by decide)
  · obtain ⟨file', w1, w2⟩ := key cenv hca clog hl
    rw [hfile] at w1
    cases w1
    obtain ⟨cout, v1, v2, v3, v4, v5⟩ := w2 fill
    rcases k6 with ⟨rfl, rfl⟩ | ⟨rfl, rfl⟩
    · exact ⟨cout, v1, v2, by simpa using v3, fun _ => rfl, fun _ => v5 rfl⟩
    · exact ⟨cout, v1, v2, by simpa using v3, fun hu => absurd (v4 hu) (by decide), fun hc => absurd hc (by decide)⟩

/-! ### Concrete cases -/

/-- The state is determined by the clauses. -/
theorem C64.reached {e : Solver.Env α} {cs : List (List Lit)} {s s' : St α} (h : Reached e cs s) (h' : Reached e cs s') : s = s' := by
  obtain ⟨n, t, b, h1, h2⟩ := h
  obtain ⟨n', t', b', k1, k2⟩ := h'
  rw [h1] at k1
  cases k1
  have key : ∀ {n : Nat} {s : St α} {b : Bool}, t.solve e n = .ok (s, b) → Solver.St.solveLoop e n { t with invoked := true } = .ok s := by
    intro n s b h
    unfold Solver.St.solve at h
    cases hl : Solver.St.solveLoop e n { t with invoked := true } with
    | error x => rw [hl] at h; cases h
    | ok z => rw [hl] at h; cases h; rfl
  have q1 := Solver.St.solveLoop_mono e (Nat.le_max_left n n') (key h2)
  have q2 := Solver.St.solveLoop_mono e (Nat.le_max_right n n') (key k2)
  rw [q1] at q2
  exact Except.ok.inj q2

/-- Something about the state after solving. -/
def C64.see (cs : List (List Lit)) (g : St Nat → Bool) : Bool :=
  match cs.foldlM (fun s c => s.loadClause Solver.Sample.env c) (Solver.St.new Solver.Sample.env) with
  | .ok s =>
    match s.solve Solver.Sample.env 30 with
    | .ok (s, _) => g s
    | .error _ => false
  | .error _ => false

theorem C64.see_reached {cs : List (List Lit)} {g : St Nat → Bool} (h : C64.see cs g = true) {s : St Nat} (hs : Reached Solver.Sample.env cs s) :
    g s = true := by
  unfold C64.see at h
  split at h
  · rename_i t ht
    split at h
    · rename_i u b hu
      rw [C64.reached hs ⟨30, t, b, ht, hu⟩]
      exact h
    · cases h
  · cases h

theorem C64.fits {cs : List (List Lit)} (h : C64.see cs (fun s => decide (s.log.length ≤ 30)) = true) :
    NetFits Solver.Sample.env cs := by
  intro s hs M hM
  · have := C64.see_reached h hs
    simp only [decide_eq_true_eq] at this
    have h4 : ∀ M : List ProofStep, netClauses M ≤ M.length := by
      intro M
      induction M with
      | nil => exact Int.le_refl _
      | cons st M ih =>
        cases st <;> simp only [netClauses, List.length_cons] <;> (try split) <;> omega
    have := h4 M
    have := hM.length_le
    omega

/-- Options and an input. -/
def C64.sample (kind : ProofKind) (text : String) : FileArgs where
  configs := [some { lubyRestartIntervalScale := some 3 }]
  input := some ⟨[ascii text], false⟩
  proof := some (kind, true)
  check := true

theorem C64.solves {kind : ProofKind} {text : String} {cs : List (List Lit)} (h : (match DimacsParser.parse [ascii text] with
      | .ok f => f.iter
      | _ => none) = some cs) : (C64.sample kind text).Solves kind ⟨[ascii text], false⟩ cs := by
  refine ⟨rfl, rfl, ⟨[{ lubyRestartIntervalScale := some 3 }], rfl, (fun x h => by cases h), (fun x h => by cases h), (fun x h => by cases h),
    (fun x h => by cases h), (fun x h => by cases h; decide)⟩, rfl, rfl, ?_⟩
  rw [show (⟨[ascii text], false⟩ : Source).chunks.flatten = ascii text by simp]
  split at h
  · rename_i f hf; exact ⟨f, hf, h⟩
  · cases h

/-- The hypotheses of `C64.drat` and `C64.lrat_partial`, and what happens. -/
example : let a := fun k => C64.sample k "1 2 0 1 -2 0 -1 2 0 -1 -2 0"
    let cs := litsOf [[1, 2], [1, -2], [-1, 2], [-1, -2]]
    let go := fun k => runFile id (fun _ => Solver.Sample.env) Solver.Sample.penv 30 {} (a k)
    (∀ k, (a k).Solves k ⟨[ascii "1 2 0 1 -2 0 -1 2 0 -1 -2 0"], false⟩ cs) ∧ ¬ Spec.LratCheck.Clash ((cs.map ints).dropLast) ∧ [] ∉ cs ∧
    Accepting Solver.Sample.penv.chk ∧ Solver.Sample.penv.chk.hasProc = true ∧ (∀ n, Solver.Sample.penv.io n = true) ∧
    go (.steps .drat) = some (ascii "s UNSATISFIABLE\n", 20, some (ascii "1 0\n2 0\n0\n")) ∧
    go (.lrat false) = some (ascii "s UNSATISFIABLE\n", 20, some (ascii "5 1 0 1 2 0\n6 2 0 5 3 0\n7 0 5 6 4 0\n")) :=
  ⟨fun k => C64.solves (by decide +kernel), no_clash (by decide), by decide, Solver.Sample.penv_accepting, rfl, fun _ => rfl, by decide +kernel,
    by decide +kernel⟩

/-- The hypotheses of `C64.native_partial`. -/
example : let cs := litsOf [[1, 2], [1, -2], [-1, 2], [-1, -2]]
    (C64.sample (.steps .varisat) "1 2 0 1 -2 0 -1 2 0 -1 -2 0").Solves (.steps .varisat) ⟨[ascii "1 2 0 1 -2 0 -1 2 0 -1 -2 0"], false⟩ cs ∧
    (∀ c ∈ cs, ∀ l ∈ c, l.neg ∉ c) ∧ NetFits Solver.Sample.env cs :=
  ⟨C64.solves (by decide +kernel), by decide, C64.fits (by decide +kernel)⟩

/-- Test: a satisfiable input, an input with an error, and a proof file that cannot be created. -/
example : let go := fun t b k => runFile id (fun _ => Solver.Sample.env) Solver.Sample.penv 30 {} { input := some ⟨[ascii t], false⟩, proof := some (k, b) }
    go "1 2 0 1 -2 0 -1 2 0" true (.lrat false) = some (ascii "s SATISFIABLE\nv 1 2 0\n", 10, some (ascii "4 1 0 1 2 0\n5 2 0 4 3 0\n5 d 3 1 2 0\n")) ∧
    go "1 2 0 x" true (.steps .drat) = some ([], 1, some []) ∧ go "1 2 0" false (.steps .drat) = some ([], 1, none) := by
  decide +kernel

/-- Test: a write fails while solving. The verdict is `UNKNOWN` and the file ends early. -/
example : runFile id (fun _ => Solver.Sample.env) { Solver.Sample.penv with io := fun n => n < 2 } 30 {}
    (C64.sample (.steps .drat) "1 2 0 1 -2 0 -1 2 0 -1 -2 0") = some (ascii "s UNKNOWN\n", 0, some []) := by
  decide +kernel

end Varisat.Cli
