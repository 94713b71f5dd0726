import Verif.Proof.Cli
import Verif.Proof.Solver.Sample
import Verif.Props.C01_Lit
import Verif.Props.C05_Incremental
import Verif.Props.C08_DimacsLanguage
import Verif.Props.C26_SatAnswers
import Verif.Props.C27_UnsatAnswers
/-!
# C48 and C49: exit status, verdict and value line of the command line tool

For all arguments, inputs, configurations and errors of the file system, the configuration parser or the proof
output. Partial: no log message contains a line break; otherwise it is false (`C48.forged`). `C49.document_partial` has
the exclusions of C08; without them it is false (`C49.not_dimacs`). The answers are those of the solver model run on the clauses
of the parser model.
-/
namespace Varisat.Cli
open Solver Api

variable {α : Type} [LinearOrder α]
variable {recip : Config.F32 → Config.F32} {env : Config.SolverConfig → Solver.Env α} {fuel : Nat} {log : Log} {args : Args}
  {out : Bytes} {code : Nat}

/-- **C48**: the exit status is 10 exactly when the verdict printed is `SATISFIABLE` and 20 exactly when it is
`UNSATISFIABLE`; the only other verdict is `UNKNOWN` with status 0; without a verdict the status is 0 (help) or 1. -/
theorem C48.status_partial (hl : log.OneLine) (h : run recip env fuel log args = some (out, code)) :
    (code = 10 ↔ verdicts out = [ascii "SATISFIABLE"]) ∧ (code = 20 ↔ verdicts out = [ascii "UNSATISFIABLE"]) ∧
    ((verdicts out = [] ∧ (code = 1 ∨ code = 0 ∧ args.optionHelp = true)) ∨ (verdicts out = [ascii "UNKNOWN"] ∧ code = 0 ∧ args.fault = true) ∨
      verdicts out = [ascii "SATISFIABLE"] ∨ verdicts out = [ascii "UNSATISFIABLE"]) := by
  have d1 : ascii "SATISFIABLE" ≠ ascii "UNSATISFIABLE" := by decide
  have d2 : ascii "UNKNOWN" ≠ ascii "SATISFIABLE" := by decide
  have d3 : ascii "UNKNOWN" ≠ ascii "UNSATISFIABLE" := by decide
  cases run_outcome hl h with
  | help hh =>
    have : verdicts help = [] := help_lines.1
    rw [this]
    simp [hh]
  | failed hp =>
    have : verdicts out = [] := hp.none ne_tags.1 ne_tags.2.2.1
    rw [this]
    simp
  | unknown hp hf =>
    have : verdicts _ = _ := (verdicts_one hp (ascii "UNKNOWN") (by decide)).1
    rw [show ascii "s UNKNOWN" = ascii "s " ++ ascii "UNKNOWN" by decide, this]
    simp [d2, d3, hf]
  | unsat hp =>
    have : verdicts _ = _ := (verdicts_one hp (ascii "UNSATISFIABLE") (by decide)).1
    rw [show ascii "s UNSATISFIABLE" = ascii "s " ++ ascii "UNSATISFIABLE" by decide, this]
    simp [d1.symm]
  | sat hp =>
    rw [(verdicts_sat hp _).1]
    simp [d1]

/-- The final solver state of a run that gave an answer: a history of calls that add the clauses of the input,
one `solve`, no assumptions. -/
theorem Solved.exec {e : Solver.Env α} (he : e.Ok) {input : Source} {m : Option (List Lit)}
    (h : Solved e fuel args input m) :
    ∃ f cs s s', DimacsParser.parse [input.chunks.flatten] = .ok f ∧ f.iter = some cs ∧
      Exec s (cs.map fun c => (.addClause c, [])) ∧
      s.step e (.solve fuel) = .ok (s', [if m.isSome then 1 else 0]) ∧ (m.isSome → s'.modelLits = some m) := by
  obtain ⟨h1, h2, h3, h4, h5, h6⟩ := h
  rename_i p fs s s' b
  obtain ⟨f, css, k1, k2, k3⟩ := C05.taken_is_parse _ p fs h1
  rw [List.map_map, show ((fun x => x.1) ∘ fun x : Bytes => (x, true)) = id from rfl, List.map_id] at k1
  refine ⟨f, css.flatten, s, s', k1, k3, ?_, ?_, ?_⟩
  · have clauses : ∀ (cs : List (List Lit)) (s s1 : St α) (hist : Hist), Exec s hist →
        cs.foldlM (fun s c => s.loadClause e c) s = .ok s1 → Exec s1 (hist ++ cs.map fun c => (.addClause c, [])) := by
      intro cs
      induction cs with
      | nil => intro s s1 hist x k; cases k; simpa using x
      | cons c cs ih =>
        intro s s1 hist x k
        rw [List.foldlM_cons] at k
        cases hc : s.loadClause e c with
        | error x => rw [hc] at k; cases k
        | ok t =>
          rw [hc] at k
          have := ih t s1 _ (Exec.call (op := .addClause c) (r := []) e x he (by unfold St.step; simp only [hc]; rfl)) k
          simpa [Op.call] using this
    have formulas : ∀ (fs : List CnfFormula) (css : List (List (List Lit))) (s s1 : St α) (hist : Hist), Exec s hist →
        fs.mapM CnfFormula.iter = some css → addFormulas e s fs = .ok s1 → Exec s1 (hist ++ css.flatten.map fun c => (.addClause c, [])) := by
      intro fs
      induction fs with
      | nil =>
        intro css s s1 hist x k1 k2
        obtain rfl : [] = css := by simpa using k1
        cases k2; simpa using x
      | cons f fs ih =>
        intro css s s1 hist x k1 k2
        rw [List.mapM_cons] at k1
        unfold addFormulas at k2
        cases hf : f.iter with
        | none => rw [hf] at k1; cases k1
        | some cs =>
          rw [hf] at k1 k2
          simp only at k2
          cases hg : fs.mapM CnfFormula.iter with
          | none => rw [hg] at k1; cases k1
          | some css' =>
            rw [hg] at k1
            obtain rfl : cs :: css' = css := by simpa using k1
            split at k2
            · cases k2
            · rename_i t ht
              have := ih css' t s1 _ (clauses cs s t hist x ht) hg k2
              simpa [List.append_assoc] using this
    have := formulas fs css _ s [] (Exec.new e) k2 h2
    simpa using this
  · unfold St.step
    simp only [h3, ok_bind]
    rw [h5]; rfl
  · intro hm
    exact h6 (h5 ▸ hm)

theorem added_clauses (cs : List (List Lit)) : added (cs.map fun c => (Call.addClause c, ([] : List Nat))) = cs := by
  unfold added
  rw [List.filterMap_map]
  exact List.filterMap_some

theorem plain_clauses (cs : List (List Lit)) : Plain (cs.map fun c => (Call.addClause c, ([] : List Nat))) := by
  intro x hx
  obtain ⟨c, _, rfl⟩ := List.mem_map.1 hx
  exact ⟨fun u k => (by cases k), fun k => (by cases k)⟩

theorem assumed_clauses (cs : List (List Lit)) : assumed (cs.map fun c => (Call.addClause c, ([] : List Nat))) = [] := by
  unfold assumed
  generalize ([] : List Lit) = a
  induction cs with
  | nil => rfl
  | cons c cs ih => simpa using ih

/-- **C48**: there is a value line exactly with status 10. It lists the literals of `model()` in order and then 0. -/
theorem C48.value_line_partial (he : ∀ c, (env c).Ok) (hl : log.OneLine) (h : run recip env fuel log args = some (out, code)) :
    (code ≠ 10 → values out = []) ∧
    (code = 10 → ∃ (s : St α) (h : Hist) (m : List Lit), Exec s (h ++ [(.solve, [1])]) ∧ s.modelLits = some (some m) ∧
      values out = [some (m.map Lit.toDimacs ++ [0])]) := by
  cases run_outcome hl h with
  | help hh =>
    have : values help = [] := by unfold values; rw [help_lines.2]; rfl
    exact ⟨fun _ => this, fun k => by cases k⟩
  | failed hp =>
    have : values out = [] := by unfold values; rw [hp.none ne_tags.2.1 ne_tags.2.2.2]; rfl
    exact ⟨fun _ => this, fun k => by cases k⟩
  | unknown hp hf => exact ⟨fun _ => (verdicts_one hp (ascii "UNKNOWN") (by decide)).2, fun k => by cases k⟩
  | unsat hp => exact ⟨fun _ => (verdicts_one hp (ascii "UNSATISFIABLE") (by decide)).2, fun k => by cases k⟩
  | sat hp h1 h2 h3 h4 h5 =>
    refine ⟨fun k => absurd rfl k, fun _ => ?_⟩
    obtain ⟨f, cs, s, s', k1, k2, k3, k4, k5⟩ := h5.exec (he _)
    exact ⟨s', _, _, Exec.call _ k3 (he _) k4, k5 rfl, (verdicts_sat hp _).2⟩

/-- The input of a run and the clauses in it. -/
def InputClauses (args : Args) (cs : List (List Lit)) : Prop :=
  ∃ i f, args.input = some i ∧ DimacsParser.parse [i.chunks.flatten] = .ok f ∧ f.iter = some cs

/-- **C49**: with status 10 the value line lists, once each and without contradiction, literals such that every
clause of the input contains one of them. -/
theorem C49.satisfiable_partial (he : ∀ c, (env c).Ok) (hl : log.OneLine) (h : run recip env fuel log args = some (out, 10)) :
    ∃ cs ns, InputClauses args cs ∧ values out = [some (ns ++ [0])] ∧ (∀ n ∈ ns, n ≠ 0 ∧ -n ∉ ns) ∧
      ∀ c ∈ cs, ∃ l ∈ c, l.toDimacs ∈ ns := by
  cases run_outcome hl h with
  | sat hp h1 h2 h3 h4 h5 =>
    obtain ⟨f, cs, s, s', k1, k2, k3, k4, k5⟩ := h5.exec (he _)
    rename_i i m
    have hx := Exec.call _ k3 (he _) k4
    have hpl : Plain ((cs.map fun c => (Call.addClause c, ([] : List Nat))) ++ [(Op.call (.solve fuel), [if (some m).isSome = true then 1 else 0])]) := by
      intro y hy
      rcases List.mem_append.1 hy with hy | hy
      · exact plain_clauses cs y hy
      · simp only [List.mem_singleton] at hy; subst hy; exact ⟨fun u k => (by cases k), fun k => (by cases k)⟩
    obtain ⟨q1, q2, q3⟩ := C26.model_satisfies hx hpl (k5 rfl)
    refine ⟨cs, m.map Lit.toDimacs, ⟨i, f, h3, k1, k2⟩, (verdicts_sat hp _).2, fun n hn => ?_, fun c hc => ?_⟩
    · obtain ⟨l, hl, rfl⟩ := List.mem_map.1 hn
      refine ⟨toDimacs_ne l, fun hm => ?_⟩
      obtain ⟨l', hl', e⟩ := List.mem_map.1 hm
      rw [← (C01.neg_spec l).2.2.2.1] at e
      have : l' = l.neg := by rw [← C01.dimacs_roundtrip' l', e, C01.dimacs_roundtrip']
      exact q3 l hl (this ▸ hl')
    · obtain ⟨l, hl, hm⟩ := q1 c (by rw [added_snoc, added_clauses]; simp [hc])
      exact ⟨l, hl, List.mem_map.2 ⟨l, hm, rfl⟩⟩

/-- **C49**: with status 20 the input is unsatisfiable. -/
theorem C49.unsatisfiable (he : ∀ c, (env c).Ok) (h : run recip env fuel log args = some (out, 20)) :
    ∃ cs, InputClauses args cs ∧ Unsat cs := by
  obtain ⟨out, h⟩ := run_quiet h
  cases run_outcome Log.quiet_oneLine h with
  | unsat hp h1 h2 h3 h4 h5 =>
    obtain ⟨f, cs, s, s', k1, k2, k3, k4, k5⟩ := h5.exec (he _)
    rename_i i
    refine ⟨cs, ⟨i, f, h3, k1, k2⟩, ?_⟩
    have := C27.solve_false_no_assumptions k3 (plain_clauses cs) (he _) (assumed_clauses cs) k4
    rwa [added_clauses] at this

/-- **C49** in terms of the DIMACS language, with the exclusion of C08 (`accepts_exactly_partial`): an answer is
given only for an input in the language, and it is about the clauses of the input. -/
theorem C49.document_partial {i : Source} {d : Option Spec.Dimacs.Doc} (he : ∀ c, (env c).Ok) (hl : log.OneLine)
    (hi : args.input = some i) (hlast : i.chunks.flatten.getLast? ≠ some 45)
    (hd : Spec.Dimacs.doc? i.chunks.flatten = d) (h : run recip env fuel log args = some (out, code)) :
    (code = 10 → ∃ d' ns, d = some d' ∧ values out = [some (ns ++ [0])] ∧ (∀ n ∈ ns, n ≠ 0 ∧ -n ∉ ns) ∧
      ∀ c ∈ d'.clauses, ∃ l ∈ c, l.toDimacs ∈ ns) ∧
    (code = 20 → ∃ d', d = some d' ∧ Unsat d'.clauses) := by
  have key : ∀ cs, InputClauses args cs → ∃ d', d = some d' ∧ d'.clauses = cs := by
    rintro cs ⟨i', f, h1, h2, h3⟩
    rw [hi] at h1
    obtain rfl := Option.some.inj h1
    have := C08.accepts_exactly_partial [i.chunks.flatten] (by simpa using hlast)
    simp only [List.flatten_cons, List.flatten_nil, List.append_nil, hd] at this
    cases d with
    | none => obtain ⟨x, hx⟩ := this; rw [hx] at h2; cases h2
    | some d' =>
      obtain ⟨f', k1, k2, _⟩ := this
      rw [k1] at h2
      obtain rfl : f' = f := by injection h2
      rw [k2] at h3
      exact ⟨d', rfl, Option.some.inj h3⟩
  refine ⟨?_, ?_⟩
  · rintro rfl
    obtain ⟨cs, ns, k1, k2, k3, k4⟩ := C49.satisfiable_partial he hl h
    obtain ⟨d', q1, rfl⟩ := key cs k1
    exact ⟨d', ns, q1, k2, k3, k4⟩
  · rintro rfl
    obtain ⟨cs, k1, k2⟩ := C49.unsatisfiable he h
    obtain ⟨d', q1, rfl⟩ := key cs k1
    exact ⟨d', q1, k2⟩

/-! ### Test cases -/

/-- A satisfiable input with an option: the output. -/
example : (run id (fun _ => Sample.env) 30 { banner1 := some (ascii "This is varisat"), solving := [none, some (ascii "hi")] }
    { configs := [some { vsidsDecay := some Config.half }], input := some ⟨[ascii "p cnf 3 3\n1 -2", ascii " 0\n-1 3 0 2 0\n"], false⟩ }) =
    some (ascii "c This is varisat\nc hi\ns SATISFIABLE\nv 1 2 3 0\n", 10) := by decide +kernel

/-- Its verdict and values. -/
example : verdicts (ascii "c This is varisat\nc hi\ns SATISFIABLE\nv 1 2 3 0\n") = [ascii "SATISFIABLE"] ∧
    values (ascii "c This is varisat\nc hi\ns SATISFIABLE\nv 1 2 3 0\n") = [some [1, 2, 3, 0]] := by decide +kernel

/-- An unsatisfiable input, one that is not in the DIMACS format, a bad option and an error of the proof output. -/
example : (run id (fun _ => Sample.env) 30 {} { input := some ⟨[ascii "1 2 0 -1 2 0 1 -2 0 -1 -2 0"], false⟩ }).map (·.2) = some 20 ∧
    (run id (fun _ => Sample.env) 30 {} { input := some ⟨[ascii "1 2 0 x"], false⟩ }).map (·.2) = some 1 ∧
    (run id (fun _ => Sample.env) 30 {} { configs := [some { vsidsDecay := some Config.one }], input := some ⟨[], false⟩ }).map (·.2) = some 1 ∧
    (run id (fun _ => Sample.env) 30 {} { input := some ⟨[ascii "1 2 0"], false⟩, fault := true }) = some (ascii "s UNKNOWN\n", 0) := by
  decide +kernel

/-- The hypotheses of `C49.document_partial` for the first test. -/
example : let bs := [ascii "p cnf 3 3\n1 -2", ascii " 0\n-1 3 0 2 0\n"].flatten
    bs.getLast? ≠ some 45 ∧
    (Spec.Dimacs.doc? bs).map (·.clauses) = some [[⟨0⟩, ⟨3⟩], [⟨1⟩, ⟨4⟩], [⟨2⟩]] := by decide +kernel

/-- Without the condition on line breaks the property is false: the name of a file that cannot be opened is part of a
message and may contain a verdict. -/
theorem C48.forged : ∃ (log : Log) (args : Args) (out : Bytes), run id (fun _ => Sample.env) 30 log args = some (out, 1) ∧
    verdicts out = [ascii "SATISFIABLE"] := by
  refine ⟨{ reading := some (ascii "Reading file 'x\ns SATISFIABLE\n'"), error := some (ascii "No such file or directory") },
    { input := none }, ascii "c Reading file 'x\ns SATISFIABLE\n'\nc No such file or directory\n", ?_, ?_⟩
  · decide +kernel
  · decide +kernel

/-- An answer is given for an input that is not in the DIMACS format (see `C08.dangling_minus_accepted`). -/
theorem C49.not_dimacs : ∃ (i : Source) (out : Bytes), Spec.Dimacs.doc? i.chunks.flatten = none ∧
    run id (fun _ => Sample.env) 30 {} { input := some i } = some (out, 10) := by
  refine ⟨⟨[ascii "1 0 -"], false⟩, ascii "s SATISFIABLE\nv 1 0\n", ?_, ?_⟩
  · decide +kernel
  · decide +kernel

end Varisat.Cli
