import Verif.Proof.TranscriptText
import Verif.Props.C60_Transcript
import Verif.Props.C50_CliCheck
/-!
# C61: the transcript lines of `--check`

For all inputs and proof files that are accepted, if no log message contains a line break.
-/
namespace Varisat.Cli
open Checker (Op TranscriptStep Faithful)
open Spec.TranscriptText

variable {env : Checker.Env} {log : Log} {args : CheckArgs} {out : Bytes} {code : Nat}

/-- The output of a run that accepts the proof. -/
theorem runCheck_accepted (hl : log.OneLine) (h : runCheck env log args = some (out, 0)) :
    ∃ s a, Verified env args s ∧ out = a ++ (printSteps {} s.tout ++ (ascii "s VERIFIED" ++ [10])) ∧ Comments a := by
  have hpre := ((hl.comments (o := log.banner1) (by simp)).append (hl.comments (o := log.banner2) (by simp))).append
    (hl.comments (o := log.reading) (by simp))
  have hpr := hl.comments (o := log.proof) (by simp)
  have hsol := hl.solving
  unfold runCheck at h
  simp only at h
  generalize logLine log.banner1 ++ logLine log.banner2 ++ logLine log.reading = pre at h hpre
  split at h
  · simp at h
  rename_i i hi
  split at h
  · simp at h
  split at h
  · simp at h
  rename_i hf
  have hf : i.fails = false := by simpa using hf
  rcases hp : DimacsParser.parseIncremental .new (i.chunks.map (·, true)) true with ⟨p, fs, err⟩
  rw [hp] at h
  simp only at h
  split at h
  · cases h
  · simp at h
  rename_i s0 hs0
  cases err with
  | some x => simp at h
  | none =>
    simp only at h
    split at h
    · simp at h
    rename_i bs hbs
    split at h
    · cases h
    · rename_i s hs
      injection h with h; injection h with h1 h2
      refine ⟨s, _, ⟨i, p, fs, s0, bs, hi, hf, hp, hs0, hbs, hs⟩, ?_, (hpre.append hsol).append hpr⟩
      rw [← h1]; simp only [List.append_assoc]
    · simp at h

theorem shown_lines {a : Bytes} (ha : Comments a) (ts : List TranscriptStep) :
    linesWith "t " (a ++ (printSteps {} ts ++ (ascii "s VERIFIED" ++ [10]))) = lines ts := by
  rw [linesWith_eq (by decide) (by decide) ha ((printSteps_isLines ts).append (.one (by decide)))]
  rw [List.filterMap_append, List.filterMap_map]
  have e : ∀ l : Bytes, ((fun l => if l.take 2 = ascii "t " then some (l.drop 2) else none) ∘ (ascii "t " ++ ·)) l = some l := fun l => rfl
  rw [funext e, List.filterMap_some]
  show lines ts ++ _ = _
  simp only [List.filterMap_cons, List.filterMap_nil]
  rw [if_neg (by decide)]
  simp

/-- **C61**: with status 0 the lines `t …` show a transcript of the input and the proof. If the proof keeps the numbers of
the variables and deletes none, this transcript is faithful. -/
theorem C61.lines_partial (hh : env.hasTranscript = true) (hl : log.OneLine) (h : runCheck env log args = some (out, 0)) :
    ∃ i f cs bs sts rest ts, args.input = some i ∧ DimacsParser.parse [i.chunks.flatten] = .ok f ∧ f.iter = some cs ∧
      args.proof = some bs ∧ readSteps args.fill (sts.length + 1) bs = .ok (sts ++ [.end_], rest) ∧
      linesWith "t " out = lines ts ∧
      ((∀ g u, ProofStep.userVarName g (some u) ∈ sts → u = g) → (∀ v, ProofStep.deleteVar v ∉ sts) →
        Faithful (cs ++ sts.flatMap fun st => Op.added (.step st)) sts ts) := by
  obtain ⟨s, a, ⟨i, p, fs, s0, bs, h1, h2, h3, h4, h5, h6⟩, rfl, ha⟩ := runCheck_accepted hl h
  obtain ⟨f, css, k1, k2, k3⟩ := C05.taken_is_parse _ p fs h3
  rw [List.map_map, show ((fun x => x.1) ∘ fun x : Bytes => (x, true)) = id from rfl, List.map_id] at k1
  have hx := addAll_execs fs k2 h4
  obtain ⟨sts, rest, q1, q2⟩ := Checker.C60.checked_partial hh hx (adds_ended _ hx) h6
  refine ⟨i, f, css.flatten, bs, sts, rest, s.tout, h1, k1, k3, h5, q1, shown_lines ha _, fun hn hd => ?_⟩
  have := q2 (by
    intro g u hm
    refine hn g u ?_
    simpa using hm) (by
    intro v hm
    refine hd v ?_
    simpa using hm)
  have e2 : Checker.added (css.flatten.map Op.add) = css.flatten := by
    unfold Checker.added
    rw [List.flatMap_map]
    exact List.flatMap_singleton' _
  have e3 : Checker.steps (css.flatten.map Op.add) = [] := by
    unfold Checker.steps
    rw [List.filterMap_map, List.filterMap_eq_nil_iff]
    intro c _; rfl
  rwa [e2, e3, List.nil_append] at this

/-! ### Test cases -/

open Demo (cl hash)

/-- Clauses, two results under assumptions and clauses added in between. -/
def sampleSteps : List ProofStep := [.assumptions (cl [-1]), .atClause true (cl [1]) [hash [1, 2], hash [1, -2]], .failedAssumptions (cl [-1]) [],
  .addClause (cl [3]), .addClause (cl [3, 4]), .userVarName 0 (some 0), .userVarName 1 (some 1), .userVarName 0 none,
  .userVarName 1 none, .assumptions [], .model (cl [1, 3]), .addClause (cl [5])]

def sampleOut : Bytes :=
  ascii "t ADD 2 CLAUSES \nt ASSUME 1 LITERALS\nt UNSAT WITH 1 ASSUMPTIONS\nt ADD 2 CLAUSES \nt HIDE 2 VARIABLES \nt ASSUME 0 LITERALS\nt SAT\ns VERIFIED\n"

example : runCheck Demo.env {} { input := some ⟨[ascii "1 2 0 1 -2 0"], false⟩, proof := some ((sampleSteps ++ [ProofStep.end_]).flatMap Fmt.writeStep) } =
    some (sampleOut, 0) := by decide +kernel

example : Demo.env.hasTranscript = true ∧ (∀ g u, ProofStep.userVarName g (some u) ∈ sampleSteps → u = g) ∧
    (∀ v, ProofStep.deleteVar v ∉ sampleSteps) := by
  refine ⟨rfl, fun g u h => ?_, fun v h => ?_⟩
  · simp [sampleSteps] at h; omega
  · simp [sampleSteps] at h

/-- The last clauses are missing if no result follows: all clauses of the input here. -/
theorem C61.last_missing : ∃ out, runCheck Demo.env {} { input := some ⟨[ascii "1 2 0 1 -2 0"], false⟩, proof := some (Fmt.writeStep .end_) } = some (out, 0) ∧
    linesWith "t " out = [] := by
  refine ⟨ascii "s VERIFIED\n", ?_, ?_⟩ <;> decide +kernel

end Varisat.Cli
