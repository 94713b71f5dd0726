import Verif.Proof.CliCheck
import Verif.Props.C05_Incremental
import Verif.Props.C13_CheckerSound
/-!
# C50: the command line checker

For all inputs, proof files and errors of the file system, if no log message contains a line break.
-/
namespace Varisat.Cli
open Checker (Op TranscriptStep)

variable {env : Checker.Env} {log : Log} {args : CheckArgs} {out : Bytes} {code : Nat}

/-- The exit status is 0 exactly when the verdict printed is `VERIFIED`; otherwise it is 1 and the verdict is
`NOT VERIFIED` or missing. -/
theorem C50.status_partial (hl : log.OneLine) (h : runCheck env log args = some (out, code)) :
    (code = 0 ↔ verdicts out = [ascii "VERIFIED"]) ∧
    (code ≠ 0 → code = 1 ∧ (verdicts out = [ascii "NOT VERIFIED"] ∨ verdicts out = [])) := by
  have d1 : ascii "NOT VERIFIED" ≠ ascii "VERIFIED" := by decide
  rcases runCheck_cases hl h with ⟨s, a, rfl, _, rfl, k⟩ | ⟨a, u, rfl, rfl, k⟩ | ⟨u, rfl, k⟩
  · have := (k.verdict (ascii "VERIFIED") (by decide)).1
    rw [show ascii "s VERIFIED" = ascii "s " ++ ascii "VERIFIED" by decide, this]
    simp
  · have := (k.verdict (ascii "NOT VERIFIED") (by decide)).1
    rw [show ascii "s NOT VERIFIED" = ascii "s " ++ ascii "NOT VERIFIED" by decide, this]
    simp [d1]
  · rw [k.none.1]; simp

/-- With status 0 the input is in the DIMACS format as parsed by the library, the proof file is a sequence of steps
up to an end marker, and if a line `t UNSAT` was printed, the clauses of the input together with those added by the
proof itself are unsatisfiable. -/
theorem C50.unsat_line_partial (hl : log.OneLine) (h : runCheck env log args = some (out, 0)) :
    ∃ i f cs bs sts rest, args.input = some i ∧ DimacsParser.parse [i.chunks.flatten] = .ok f ∧ f.iter = some cs ∧
      args.proof = some bs ∧ readSteps args.fill (sts.length + 1) bs = .ok (sts ++ [.end_], rest) ∧
      (ascii "t UNSAT" ∈ outLines out → Unsat (cs ++ sts.flatMap fun st => Op.added (.step st))) := by
  rcases runCheck_cases hl h with ⟨s, a, _, ⟨i, p, fs, s0, bs, h1, h2, h3, h4, h5, h6⟩, rfl, k⟩ | ⟨a, u, k, _⟩ | ⟨u, k, _⟩
  · obtain ⟨f, css, k1, k2, k3⟩ := C05.taken_is_parse _ p fs h3
    rw [List.map_map, show ((fun x => x.1) ∘ fun x : Bytes => (x, true)) = id from rfl, List.map_id] at k1
    have hx := addAll_execs fs k2 h4
    obtain ⟨sts, rest, q1, q2⟩ := C13.check_proof_sound env args.fill _ bs s0 s hx (adds_ended _ hx) h6
    refine ⟨i, f, css.flatten, bs, sts, rest, h1, k1, k3, h5, q1, fun hm => ?_⟩
    have e : ascii "s VERIFIED" = ascii "s " ++ ascii "VERIFIED" := by decide
    rw [e] at hm
    have := q2 (.inr (.inr ((k.verdict (ascii "VERIFIED") (by decide)).2.1 hm)))
    have e2 : Checker.added (css.flatten.map Op.add) = css.flatten := by
      unfold Checker.added
      rw [List.flatMap_map]
      exact List.flatMap_singleton' _
    rwa [e2] at this
  · cases k
  · cases k

/-- If the proof adds no clauses itself, a line `t UNSAT` means that the input is unsatisfiable. -/
theorem C50.refuted_partial (hl : log.OneLine) (h : runCheck env log args = some (out, 0)) (hu : ascii "t UNSAT" ∈ outLines out) :
    ∃ i f cs bs sts rest, args.input = some i ∧ DimacsParser.parse [i.chunks.flatten] = .ok f ∧ f.iter = some cs ∧
      args.proof = some bs ∧ readSteps args.fill (sts.length + 1) bs = .ok (sts ++ [.end_], rest) ∧
      ((∀ c, ProofStep.addClause c ∉ sts) → Unsat cs) := by
  obtain ⟨i, f, cs, bs, sts, rest, h1, h2, h3, h4, h5, h6⟩ := C50.unsat_line_partial hl h
  refine ⟨i, f, cs, bs, sts, rest, h1, h2, h3, h4, h5, fun hno => ?_⟩
  have e : (sts.flatMap fun st => Op.added (.step st)) = [] := by
    rw [List.flatMap_eq_nil_iff]
    intro st hst
    cases st with
    | addClause c => exact absurd hst (hno c)
    | _ => rfl
  have := h6 hu
  rwa [e, List.append_nil] at this

/-! ### Test cases -/

open Demo (cl hash)

/-- The four clauses over two variables and their refutation. -/
def sampleProof : Bytes := ([.atClause false (cl [1]) [hash [1, 2], hash [1, -2]],
  .atClause true (cl []) [hash [-1, 2], hash [-1, -2]], .end_] : List ProofStep).flatMap Fmt.writeStep

example : runCheck Demo.env {} { input := some ⟨[ascii "1 2 0 1 -2 0 -1 2 0 -1 -2 0"], false⟩, proof := some sampleProof } =
    some (ascii "t ADD 4 CLAUSES \nt UNSAT\ns VERIFIED\n", 0) := by decide +kernel

example : verdicts (ascii "t ADD 4 CLAUSES \nt UNSAT\ns VERIFIED\n") = [ascii "VERIFIED"] ∧
    ascii "t UNSAT" ∈ outLines (ascii "t ADD 4 CLAUSES \nt UNSAT\ns VERIFIED\n") := by decide +kernel

/-- A proof that is cut off. -/
example : runCheck Demo.env {} { input := some ⟨[ascii "1 2 0 1 -2 0 -1 2 0 -1 -2 0"], false⟩, proof := some sampleProof.dropLast } =
    some (ascii "t ADD 4 CLAUSES \nt UNSAT\ns NOT VERIFIED\n", 1) := by decide +kernel

/-- `VERIFIED` alone says nothing about the input: a proof that consists of the end marker is verified, too. -/
theorem C50.verified_without_refutation : ∃ out, runCheck Demo.env {}
    { input := some ⟨[ascii "1 2 0"], false⟩, proof := some (Fmt.writeStep .end_) } = some (out, 0) ∧
    verdicts out = [ascii "VERIFIED"] ∧ ascii "t UNSAT" ∉ outLines out := by
  refine ⟨ascii "s VERIFIED\n", ?_, ?_, ?_⟩ <;> decide +kernel

/-- `t UNSAT` does not say that the input is unsatisfiable: the proof file may add clauses to the formula, and the
transcript counts them together with those of the input. -/
theorem C50.added_in_proof : ∃ out, runCheck Demo.env {}
      { input := some ⟨[ascii "1 2 0"], false⟩, proof := some (([ProofStep.addClause (cl [-1]), .addClause (cl [1]), .end_] : List ProofStep).flatMap Fmt.writeStep) } = some (out, 0) ∧
    verdicts out = [ascii "VERIFIED"] ∧ outLines out = [ascii "t ADD 3 CLAUSES ", ascii "t UNSAT", ascii "s VERIFIED", []] := by
  refine ⟨ascii "t ADD 3 CLAUSES \nt UNSAT\ns VERIFIED\n", ?_, ?_, ?_⟩ <;> decide +kernel

/-- Without the condition on line breaks `C50.status_partial` is false: the name of a file that cannot be opened is part
of a message and may contain a verdict. -/
theorem C50.forged : ∃ (log : Log) (args : CheckArgs) (out : Bytes), runCheck Demo.env log args = some (out, 1) ∧
    verdicts out = [ascii "VERIFIED"] := by
  refine ⟨{ reading := some (ascii "Reading file 'x\ns VERIFIED\n'"), error := some (ascii "No such file or directory") },
    { input := none, proof := none }, ascii "c Reading file 'x\ns VERIFIED\n'\nc No such file or directory\n", ?_, ?_⟩ <;>
    decide +kernel

end Varisat.Cli
