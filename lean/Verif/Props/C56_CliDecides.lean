import Verif.Props.C43_Config
import Verif.Props.C48_Cli
import Verif.Props.C53_NoPanic
import Verif.Props.C54_Termination
import Verif.Props.C55_Answers
/-!
# C56: the command line tool always ends with a result

The number `fuel` of `run` bounds the steps of the search. The theorems say that some number is always enough and
that more change nothing.
-/
namespace Varisat.Cli
open Solver Api

variable {α : Type} [LinearOrder α]
variable {recip : Config.F32 → Config.F32} {env : Config.SolverConfig → Solver.Env α} {log : Log} {args : Args}

/-- Only clauses were added. -/
theorem not_found_clauses (cs : List (List Lit)) : found (cs.map fun c => (Call.addClause c, ([] : List Nat))) = false := by
  unfold found
  induction cs with
  | nil => rfl
  | cons c cs ih => simpa using ih

theorem load_total {e : Solver.Env α} (he : e.Ok) : ∀ (cs : List (List Lit)) {s : St α} {pre : List (List Lit)},
    Exec s (pre.map fun c => (.addClause c, [])) →
    ∃ t, cs.foldlM (fun s c => s.loadClause e c) s = .ok t ∧ Exec t ((pre ++ cs).map fun c => (.addClause c, []))
  | [], s, pre, x => ⟨s, rfl, by simpa using x⟩
  | c :: cs, s, pre, x => by
    have hn : s.step e (.addClause c) ≠ .error .panic := by
      refine C53.plain_never x he _ (fun y hy => ?_)
      obtain ⟨c, _, rfl⟩ := List.mem_map.1 hy
      exact ⟨fun ls k => (by cases k), fun u k => (by cases k), fun k => (by cases k)⟩
    obtain ⟨a, ids, _, hi⟩ := x.inv
    rcases hi.step he (.addClause c) with ⟨k, _⟩ | ⟨_, n, k⟩ | ⟨s', r, _, _, k, _⟩
    · exact absurd k hn
    · cases k
    · cases hl : s.loadClause e c with
      | error z =>
        exfalso
        unfold St.step at k
        simp only [hl] at k
        cases k
      | ok t =>
        have k' : s.step e (.addClause c) = .ok (t, []) := by unfold St.step; simp only [hl]; rfl
        have x' := Exec.call (op := .addClause c) e x he k'
        obtain ⟨u, q1, q2⟩ := load_total he cs (pre := pre ++ [c]) (s := t) (by simpa [Op.call] using x')
        refine ⟨u, ?_, by simpa using q2⟩
        rw [List.foldlM_cons, hl]
        exact q1

theorem formulas_total {e : Solver.Env α} (he : e.Ok) : ∀ (fs : List CnfFormula) {css : List (List (List Lit))} {s : St α} {pre : List (List Lit)},
    Exec s (pre.map fun c => (.addClause c, [])) → fs.mapM CnfFormula.iter = some css →
    ∃ t, addFormulas e s fs = .ok t ∧ Exec t ((pre ++ css.flatten).map fun c => (.addClause c, []))
  | [], css, s, pre, x, h => by
    obtain rfl : [] = css := by simpa using h
    exact ⟨s, rfl, by simpa using x⟩
  | f :: fs, css, s, pre, x, h => by
    rw [List.mapM_cons] at h
    cases hf : f.iter with
    | none => rw [hf] at h; cases h
    | some cs =>
      rw [hf] at h
      cases hg : fs.mapM CnfFormula.iter with
      | none => rw [hg] at h; cases h
      | some css' =>
        rw [hg] at h
        obtain rfl : cs :: css' = css := by simpa using h
        obtain ⟨t, q1, q2⟩ := load_total he cs x
        obtain ⟨u, q3, q4⟩ := formulas_total he fs q2 hg
        refine ⟨u, ?_, by simpa using q4⟩
        unfold addFormulas
        rw [hf]
        simp only [q1, q3]

/-- Solving clauses. -/
theorem answer_total {e : Solver.Env α} (he : e.Ok) {cs : List (List Lit)} {s : St α} (x : Exec s (cs.map fun c => (.addClause c, [])))
    (log : Log) (fault : Bool) : ∃ N a code, (∀ n, N ≤ n → answer e n log fault s = some (a, code)) ∧
      (fault = true → code = 0) ∧ (fault = false → (code = 10 ∧ ∃ τ, cnfSat τ cs) ∨ (code = 20 ∧ Unsat cs)) := by
  cases fault with
  | true => exact ⟨0, _, _, fun n _ => rfl, fun _ => rfl, fun k => by cases k⟩
  | false =>
    obtain ⟨N, s', r, k1, k2, k3⟩ := C54.decides x (plain_clauses cs) he
    rw [added_clauses, assumed_clauses] at k3
    have k4 : ∀ n, N ≤ n → ∃ b : Bool, s.solve e n = .ok (s', b) ∧ r = [if b then 1 else 0] := fun n hn => solve_step (k1 n hn)
    rcases k2 with rfl | rfl
    · refine ⟨N, ascii "s UNSATISFIABLE" ++ [10], 20, fun n hn => ?_, fun k => (by cases k), fun _ => .inr ⟨rfl, ?_⟩⟩
      · obtain ⟨b, q1, q2⟩ := k4 n hn
        obtain rfl : b = false := by cases b <;> simp at q2 ⊢
        unfold answer
        rw [q1]
        rfl
      · intro τ hτ
        exact absurd (k3.2 ⟨τ, hτ, fun l hl => by cases hl⟩) (by simp)
    · obtain ⟨τ, hτ, _⟩ := k3.1 rfl
      have x' := Exec.call (op := .solve N) e x he (k1 N (Nat.le_refl _))
      obtain ⟨m, hm⟩ := C55.model_some_partial (h1 := cs.map fun c => (.addClause c, [])) (h2 := []) x' (not_found_clauses cs)
        (fun y hy => by cases hy) (fun p y q h => by simp at h)
      refine ⟨N, ascii "s SATISFIABLE" ++ [10] ++ ascii "v" ++ m.flatMap (fun l => ascii " " ++ decInt l.toDimacs) ++
          ascii " 0" ++ [10], 10, fun n hn => ?_, fun k => (by cases k), fun _ => .inl ⟨rfl, τ, hτ⟩⟩
      obtain ⟨b, q1, q2⟩ := k4 n hn
      obtain rfl : b = true := by cases b <;> simp at q2 ⊢
      unfold answer
      rw [q1]
      simp only [hm]
      rfl

/-- The options are accepted: all can be read, and together they are within the documented ranges. -/
def Args.Configured (args : Args) : Prop := ∃ vs : List Config.Update, args.configs = vs.map some ∧ (vs.foldl Config.Update.merge {}).InRange

/-- The input can be read and contains the clauses `cs`, and the proof file can be created. -/
def Args.Usable (args : Args) (i : Source) (cs : List (List Lit)) : Prop :=
  i.fails = false ∧ (∀ p, args.proof = some p → p.creates = true) ∧ ∃ f, DimacsParser.parse [i.chunks.flatten] = .ok f ∧ f.iter = some cs

/-- Nothing fails: the options are accepted, the input can be read, the proof file can be created and the proof written. -/
def Args.Clean (args : Args) (i : Source) : Prop :=
  args.optionHelp = false ∧ args.Configured ∧ args.input = some i ∧ i.fails = false ∧ (∀ p, args.proof = some p → p.creates = true) ∧
    args.fault = false

/-- The options in the model. -/
theorem mergeConfigs_iff : ∀ {L : List (Option Config.Update)} {u v : Config.Update},
    mergeConfigs u L = some v ↔ ∃ vs : List Config.Update, L = vs.map some ∧ vs.foldl Config.Update.merge u = v
  | [], u, v => by
    simp only [mergeConfigs, Option.some.injEq]
    exact ⟨fun h => ⟨[], rfl, h⟩, fun ⟨vs, h1, h2⟩ => by
      obtain rfl : vs = [] := by simpa using h1.symm
      exact h2⟩
  | none :: L, u, v => by
    simp only [mergeConfigs, reduceCtorEq, false_iff]
    rintro ⟨vs, h1, -⟩
    cases vs <;> simp at h1
  | some w :: L, u, v => by
    rw [mergeConfigs, mergeConfigs_iff]
    constructor
    · rintro ⟨vs, rfl, h⟩; exact ⟨w :: vs, rfl, h⟩
    · rintro ⟨vs, h1, h2⟩
      cases vs with
      | nil => simp at h1
      | cons x vs =>
        simp only [List.map_cons, List.cons.injEq, Option.some.injEq] at h1
        obtain ⟨rfl, rfl⟩ := h1
        exact ⟨vs, rfl, h2⟩

theorem solveInput_total {e : Solver.Env α} (he : e.Ok) (log : Log) (args : Args) (i : Source) (out : Bytes) :
    ∃ N r, (∀ n, N ≤ n → solveInput e n log args i out = some r) ∧
      ((r.2 = 1 ∧ ∀ cs, ¬ args.Usable i cs) ∨ ∃ cs, args.Usable i cs ∧ (args.fault = true → r.2 = 0) ∧
        (args.fault = false → (r.2 = 10 ∧ ∃ τ, cnfSat τ cs) ∨ (r.2 = 20 ∧ Unsat cs))) := by
  have go : ∀ out, (∀ p, args.proof = some p → p.creates = true) → ∃ N r, (∀ n, N ≤ n → (if i.fails then some (out ++ logLine log.error, 1)
      else
        match DimacsParser.parseIncremental .new (i.chunks.map (·, true)) true with
        | (_, fs, err) =>
          match addFormulas e (Solver.St.new e) fs with
          | .error _ => none
          | .ok s =>
            match err with
            | some _ => some (out ++ logLine log.error, 1)
            | none =>
              match answer e n log args.fault s with
              | none => none
              | some (a, code) => some (out ++ log.solving.flatMap logLine ++ a, code)) = some r) ∧
      ((r.2 = 1 ∧ ∀ cs, ¬ args.Usable i cs) ∨ ∃ cs, args.Usable i cs ∧ (args.fault = true → r.2 = 0) ∧
        (args.fault = false → (r.2 = 10 ∧ ∃ τ, cnfSat τ cs) ∨ (r.2 = 20 ∧ Unsat cs))) := by
    intro out hcr
    cases hf : i.fails with
    | true => exact ⟨0, _, fun n _ => rfl, .inl ⟨rfl, fun cs k => by rw [k.1] at hf; cases hf⟩⟩
    | false =>
      simp only [Bool.false_eq_true, if_false]
      obtain ⟨k1, _, _, css, rest, k4, k5, k6, k7⟩ := C05.exactly_once (i.chunks.map (·, true)) true
      rcases hp : DimacsParser.parseIncremental .new (i.chunks.map (·, true)) true with ⟨p, fs, err⟩
      rw [hp] at k1 k4
      obtain ⟨t, q1, q2⟩ := formulas_total he fs (pre := []) (Exec.new e) k4
      simp only [q1]
      rw [List.nil_append] at q2
      cases err with
      | some x =>
        refine ⟨0, _, fun n _ => rfl, .inl ⟨rfl, ?_⟩⟩
        rintro cs ⟨-, -, f, h, -⟩
        have e1 : (i.chunks.map (·, true)).map (fun c => (c.1, false)) = i.chunks.map (·, false) := by simp
        rw [e1, DimacsParser.parseIncremental_whole _ .new rfl] at k1
        unfold DimacsParser.parse at h
        rw [DimacsParser.parseIncremental_whole [_] .new rfl] at h
        simp only [List.flatten_cons, List.flatten_nil, List.append_nil] at h
        generalize DimacsParser.whole .new i.chunks.flatten = z at h k1
        obtain ⟨z1, z2, z3⟩ := z
        simp only at k1
        subst k1
        cases h
      | none =>
        obtain ⟨N, a, code, q3, q4⟩ := answer_total he q2 log args.fault
        refine ⟨N, (out ++ log.solving.flatMap logLine ++ a, code), fun n hn => by simp only [q3 n hn], .inr ⟨css.flatten, ?_, q4⟩⟩
        obtain ⟨f', css', j1, j2, j3⟩ := C05.taken_is_parse _ p fs hp
        rw [List.map_map, show ((fun x => x.1) ∘ fun x : Bytes => (x, true)) = id from rfl, List.map_id] at j1
        rw [k4] at j2
        obtain rfl := Option.some.inj j2
        exact ⟨hf, hcr, f', j1, j3⟩
  unfold solveInput
  cases hp : args.proof with
  | none => exact go out fun p h => by rw [hp] at h; cases h
  | some p =>
    simp only
    cases hc : p.creates with
    | true =>
      obtain ⟨N, r, k1, k2⟩ := go (out ++ logLine log.proof) (fun p' h => by rw [hp] at h; cases h; exact hc)
      refine ⟨N, r, fun n hn => ?_, k2⟩
      split
      · exact k1 n hn
      · exact k1 n hn
    | false =>
      have hno : ∀ cs, ¬ args.Usable i cs := fun cs k => by rw [k.2.1 p hp] at hc; cases hc
      split
      · exact ⟨0, _, fun n _ => rfl, .inl ⟨rfl, hno⟩⟩
      · exact ⟨0, _, fun n _ => rfl, .inl ⟨rfl, hno⟩⟩

/-- **C56**: the program always ends, without a panic, for all arguments, inputs and errors. The exit status is 0 if the
options ask for help. Otherwise it is 1 if and only if an option is not accepted, the input cannot be read or is not a
formula, or the proof file cannot be created. Otherwise it is 0 if solving fails, and else 10 or 20, which decides whether
the clauses of the input are satisfiable. -/
theorem C56.status (he : ∀ c, (env c).Ok) (recip : Config.F32 → Config.F32) (log : Log) (args : Args) :
    ∃ N out code, (∀ n, N ≤ n → run recip env n log args = some (out, code)) ∧ (args.optionHelp = true → code = 0) ∧
      (args.optionHelp = false →
        (code = 1 ∧ ∀ i cs, ¬ (args.Configured ∧ args.input = some i ∧ args.Usable i cs)) ∨
        ∃ i cs, (args.Configured ∧ args.input = some i ∧ args.Usable i cs) ∧ (args.fault = true → code = 0) ∧
          (args.fault = false → (code = 10 ∧ ∃ τ, cnfSat τ cs) ∨ (code = 20 ∧ Unsat cs))) := by
  unfold run
  cases hh : args.optionHelp with
  | true => exact ⟨0, _, _, fun n _ => rfl, fun _ => rfl, fun k => by cases k⟩
  | false =>
    simp only [Bool.false_eq_true, if_false, false_imp_iff, true_and, forall_const]
    cases hm : mergeConfigs {} args.configs with
    | none =>
      refine ⟨0, _, _, fun n _ => rfl, .inl ⟨rfl, ?_⟩⟩
      rintro i cs ⟨⟨vs, h1, -⟩, -⟩
      rw [mergeConfigs_iff.2 ⟨vs, h1, rfl⟩] at hm
      cases hm
    | some u =>
      obtain ⟨vs, h1, rfl⟩ := mergeConfigs_iff.1 hm
      have hconf : args.Configured ↔ (vs.foldl Config.Update.merge {}).InRange := by
        refine ⟨fun ⟨ws, k1, k2⟩ => ?_, fun k => ⟨vs, h1, k⟩⟩
        rw [h1] at k1
        rwa [(List.map_inj_right (fun _ _ h => Option.some.inj h)).1 k1]
      simp only
      rcases Config.C43.solver (recip := recip) .new (vs.foldl Config.Update.merge {}) with ⟨hr, f, k⟩ | ⟨hr, c, k, _⟩
      · rw [k]
        exact ⟨0, _, _, fun n _ => rfl, .inl ⟨rfl, fun i cs q => hr (hconf.1 q.1)⟩⟩
      · rw [k]
        simp only
        cases hin : args.input with
        | none => exact ⟨0, _, _, fun n _ => rfl, .inl ⟨rfl, fun i cs q => by cases q.2.1⟩⟩
        | some i =>
          obtain ⟨N, r, k, q⟩ := solveInput_total (he c.config) log args i (logLine log.banner1 ++ logLine log.banner2 ++ logLine log.reading)
          refine ⟨N, r.1, r.2, k, ?_⟩
          rcases q with ⟨q1, q2⟩ | ⟨cs, q1, q2, q3⟩
          · refine .inl ⟨q1, fun j cs w => ?_⟩
            obtain rfl : i = j := Option.some.inj w.2.1
            exact q2 cs w.2.2
          · exact .inr ⟨i, cs, ⟨hconf.2 hr, rfl, q1⟩, q2, q3⟩

/-- **C56**: the program always ends, without a panic, for all arguments, inputs and errors. -/
theorem C56.ends (he : ∀ c, (env c).Ok) (recip : Config.F32 → Config.F32) (log : Log) (args : Args) :
    ∃ N out code, ∀ n, N ≤ n → run recip env n log args = some (out, code) := by
  obtain ⟨N, out, code, h, -⟩ := C56.status he recip log args
  exact ⟨N, out, code, h⟩

/-- **C56**: if nothing fails and the input can be parsed, the program ends with status 10 or 20, and this decides
whether the clauses of the input are satisfiable. -/
theorem C56.decides (he : ∀ c, (env c).Ok) (recip : Config.F32 → Config.F32) (log : Log) {args : Args} {i : Source} (hc : args.Clean i)
    {f : CnfFormula} {cs : List (List Lit)} (hf : DimacsParser.parse [i.chunks.flatten] = .ok f) (hcs : f.iter = some cs) :
    ∃ N out code, (∀ n, N ≤ n → run recip env n log args = some (out, code)) ∧
      ((code = 10 ∧ ∃ τ, cnfSat τ cs) ∨ (code = 20 ∧ Unsat cs)) := by
  obtain ⟨h1, h2, h4, h5, h6, h7⟩ := hc
  obtain ⟨N, out, code, k1, -, k2⟩ := C56.status he recip log args
  refine ⟨N, out, code, k1, ?_⟩
  rcases k2 h1 with ⟨-, q⟩ | ⟨j, cs', ⟨-, q1, -, -, f', q2, q3⟩, -, q4⟩
  · exact absurd ⟨h2, h4, h5, h6, f, hf, hcs⟩ (q i cs)
  · rw [h4] at q1
    obtain rfl : i = j := Option.some.inj q1
    rw [hf] at q2
    obtain rfl : f = f' := by injection q2
    rw [hcs] at q3
    obtain rfl : cs = cs' := Option.some.inj q3
    exact q4 h7

/-- The same for the DIMACS language. -/
theorem C56.document (he : ∀ c, (env c).Ok) (recip : Config.F32 → Config.F32) (log : Log) {args : Args} {i : Source} (hc : args.Clean i)
    {d : Spec.Dimacs.Doc} (hd : Spec.Dimacs.doc? i.chunks.flatten = some d) :
    ∃ N out code, (∀ n, N ≤ n → run recip env n log args = some (out, code)) ∧
      ((code = 10 ∧ ∃ τ, cnfSat τ d.clauses) ∨ (code = 20 ∧ Unsat d.clauses)) := by
  obtain ⟨f, k1, k2, _⟩ := C08.accepts_all [i.chunks.flatten] (by simpa using hd)
  exact C56.decides he recip log hc k1 k2

/-! ### Test cases -/

/-- The hypotheses of the theorems: two files, one of them unsatisfiable, with options and a proof file. -/
example : let a : List Bytes → Args := fun bs =>
      { configs := [some { vsidsDecay := some Config.half }, some { lubyRestartIntervalScale := some 3 }], input := some ⟨bs, false⟩, proof := some ⟨false, true⟩ }
    let x := [ascii "p cnf 3 3\n1 -2", ascii " 0\n-1 3 0 2 0\n"]
    let y := [ascii "c an example-\n1 2 0 1 -", ascii "2 0 -1 2 0 -1 -2 0\n"]
    (a x).Clean ⟨x, false⟩ ∧ (a y).Clean ⟨y, false⟩ ∧
    (Spec.Dimacs.doc? x.flatten).map (·.clauses.length) = some 3 ∧ (Spec.Dimacs.doc? y.flatten).map (·.clauses.length) = some 4 ∧
    (run id (fun _ => Sample.env) 30 {} (a x)).map (·.2) = some 10 ∧ (run id (fun _ => Sample.env) 30 {} (a y)).map (·.2) = some 20 := by
  have hr : (({} : Config.Update).merge { vsidsDecay := some Config.half } |>.merge { lubyRestartIntervalScale := some 3 }).InRange :=
    ⟨fun x h => (by cases h; exact (Config.decayOk_iff _).2 (by decide)), fun x h => (by cases h), fun x h => (by cases h), fun x h => (by cases h),
      fun x h => (by cases h; decide)⟩
  refine ⟨⟨rfl, ⟨[_, _], rfl, hr⟩, rfl, rfl, (fun p h => by cases h; rfl), rfl⟩, ⟨rfl, ⟨[_, _], rfl, hr⟩, rfl, rfl, (fun p h => by cases h; rfl), rfl⟩, ?_, ?_, ?_, ?_⟩ <;> decide +kernel

/-- Test: the ways to end with status 1, and a failure while solving. -/
example : let f := some (⟨[ascii "1 0"], false⟩ : Source)
    let st : Args → Option Nat := fun a => (run id (fun _ => Sample.env) 30 {} a).map (·.2)
    [st { configs := [none], input := f }, st { configs := [some { lubyRestartIntervalScale := some 0 }], input := f },
      st { input := none }, st { input := some ⟨[ascii "1 0"], true⟩ }, st { input := some ⟨[ascii "x"], false⟩ },
      st { input := f, proof := some ⟨false, false⟩ }, st { input := f, fault := true }, st { input := f }, st { input := none, optionHelp := true }]
    = [some 1, some 1, some 1, some 1, some 1, some 1, some 0, some 10, some 0] := by decide +kernel

end Varisat.Cli
