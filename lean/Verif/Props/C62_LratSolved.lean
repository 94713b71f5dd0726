import Verif.Proof.Solver.WrittenInner
import Verif.Props.C57_ProofRoundTrip
import Verif.Props.C62_LratFile
/-!
# C62: LRAT files made from the proofs of the solver

The clauses of a file are added to a new solver, which solves them and writes a proof. `varisat --check --write-lrat` with
the same file and this proof gives an LRAT file that an LRAT checker accepts for the clauses of the file. If the answer was
"unsatisfiable" it derives the empty clause.

Partial, as `Cli.C57.verified_partial`: no tautologies, at no point more than 2^32 clauses in the proof. And no two clauses of the file,
except for the last one, are units that contradict each other.
-/
namespace Varisat.Cli
open Checker (ints Accepting)
open Checker.Told (Talks)
open Solver (St Joint)
open Spec.Lrat Spec.LratCheck
open Fmt (writeStep)

variable {α : Type} [LinearOrder α] {env : Out.Env} {check : Bool}

/-- **C62**: the LRAT file made from the proof of a run of the solver. -/
theorem C62.solved_partial {cenv : Checker.Env} (hca : Talks cenv) (hproc : cenv.hasProc = true)
    {i : Source} (hi : i.fails = false) {f : CnfFormula} {cs : List (List Lit)} (hf : DimacsParser.parse [i.chunks.flatten] = .ok f)
    (hcs : f.iter = some cs) (ht : ∀ c ∈ cs, ∀ l ∈ c, l.neg ∉ c) (hcl : ¬ Clash ((cs.map ints).dropLast)) {s : St α} {o o' : Out.Sess} {r : Nat}
    (x : Joint env (some .varisat) check s o ((cs.map fun c => (.addClause c, [])) ++ [(.solve, [r])]))
    (hnet : ∀ M, M <+: s.log → netClauses M ≤ 2 ^ 32) (hc : Out.close env o = some (o', .unit)) :
    ∃ file, o'.files.getLast? = some file ∧ ∀ fill binary, ∃ lines,
      Varisat.C62.read binary (lratFile cenv { input := some i, proof := some (file.written.flatMap writeStep), fill } binary) = some lines ∧
      Valid (start (cs.map ints)) (lines.flatMap Line.events) ∧
      (r = 0 → [] ∉ cs → Empties (lines.flatMap Line.events)) := by
  have ha := env.chk.lenient_accepting
  have x := x.lenient_of_close hc
  have hc : Out.close env.lenient o = some (o', .unit) := hc
  obtain ⟨file, h1, h2⟩ := C57.verified_partial hca (log := {}) Log.quiet_oneLine hi hf hcs ht x hnet hc
  have hasm : Solver.NoAsm ((cs.map fun c => (Api.Call.addClause c, ([] : List Nat))) ++ [(.solve, [r])]) := by
    intro y hy ls hl
    rcases List.mem_append.1 hy with hy | hy
    · obtain ⟨c, -, rfl⟩ := List.mem_map.1 hy; cases hl
    · rw [List.mem_singleton.1 hy] at hl; cases hl
  obtain ⟨given, w, w1, w0, w2, w3, w4, w5⟩ := Solver.written_inner ha x
    (fun y hy => by obtain ⟨c, -, rfl⟩ := List.mem_map.1 hy; exact fun h => by cases h) ⟨(C57.vars_le hf hcs x.exec).2, fun _ => hnet, x.exec.fine_of_noAsm hasm⟩
    (plain_clauses cs) (x.exec.fits (Nat.le_trans (C57.vars_le hf hcs x.exec).1 (by decide)) fun ls r hl => by rw [hasm _ hl ls rfl]; decide) hc
  have hfile : file = ⟨.varisat, given, w⟩ := by
    rw [w1] at h1
    simpa using h1.symm
  refine ⟨file, h1, fun fill binary => ?_⟩
  obtain ⟨out, q1, -, -, -, q2⟩ := h2 fill
  obtain ⟨i', f', cs', bs, sts, rest, k1, k2, k3, k4, k5, k6⟩ := C62.file_partial hproc (log := {}) Log.quiet_oneLine q1 binary
  cases k1
  cases k4
  rw [hf] at k2
  cases k2
  rw [hcs] at k3
  cases k3
  obtain ⟨rest', r1⟩ := w5 fill
  rw [hfile] at k5
  obtain ⟨rfl, -⟩ := Checker.readSteps_end_unique fill _ _ _ _ _ k6.1 w2 k5 r1
  obtain ⟨lines, m1, m2, m3⟩ := k6.2 hcl w3 w4
  exact ⟨lines, m1, m2, fun h0 he => m3 (q2 h0 he)⟩

/-- The hypotheses of `C62.solved_partial`. -/
example : C57.Meets (ascii "1 2 0 1 -2 0 -1 2 0 -1 -2 0") (litsOf [[1, 2], [1, -2], [-1, 2], [-1, -2]]) 0 ∧
    ¬ Clash (((litsOf [[1, 2], [1, -2], [-1, 2], [-1, -2]]).map ints).dropLast) ∧ Talks Solver.Sample.penv.chk ∧
    Solver.Sample.penv.chk.hasProc = true :=
  ⟨C57.meets (by decide +kernel) (by decide) (by decide +kernel), no_clash (by decide), penv_talks, rfl⟩

end Varisat.Cli
