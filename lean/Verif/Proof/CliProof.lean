import Verif.Proof.CliCheck
import Verif.Proof.CheckerTold
import Verif.Proof.CheckerSaid
import Verif.Proof.Solver.SolveLog
import Verif.Proof.Solver.WrittenFile
import Verif.Proof.Solver.ModelOk
import Verif.Props.C05_Incremental
import Verif.Props.C13_CheckerSound
/-!
# A proof written by the solver, checked by `--check`
-/
namespace Varisat.Checker

/-- The transcript after the conflicting units. -/
theorem conflicts_sound {env : Env} {ops : List Op} {K1 K : St} {n : Nat} (h : execs env ops {} = .ok () K1)
    (hc : processUnitConflicts env { K1 with step := n, ended := true } = .ok () K) (hu : .unsat ∈ K.tout) : Unsat (added ops) := by
  have hr := ran_execs (Ran.init (env := env)) h
  rw [List.nil_append] at hr
  by_cases hs1 : K1.unsat = true
  · exact hr.core.unsat hs1
  · have hnc : K1.unitConflict = none := by
      have := hr.core.conf
      cases hc : K1.unitConflict with
      | none => rfl
      | some x => rw [hc] at this; exact absurd (this rfl) hs1
    have hc : (match K1.unitConflict with
      | some (a, b) => emit env (.atClause K1.nextId false [] [a, b])
      | none => pure ()) { K1 with step := n, ended := true } = .ok () K := hc
    rw [hnc] at hc
    cases hc
    exact C13.refutation_sound env ops K1 h (.inr (.inr hu))

theorem inStep_mem : ∀ {b : Nat} {given w : List ProofStep}, InStep b given w → ∀ st ∈ w, (∃ c, st = .changeHashBits c) ∨ ∃ x ∈ given, ∃ b, st = x.cut b
  | b, given, [], h, st, hst => by cases hst
  | b, given, .changeHashBits c :: w, h, st, hst => by
    have h : InStep c given w := by cases given <;> exact h
    rcases List.mem_cons.1 hst with rfl | hst
    · exact .inl ⟨c, rfl⟩
    · exact inStep_mem h st hst
  | b, [], y :: w, h, st, hst => by
    by_cases hy : ∃ c, y = .changeHashBits c
    · obtain ⟨c, rfl⟩ := hy
      rcases List.mem_cons.1 hst with rfl | hst
      · exact .inl ⟨c, rfl⟩
      · exact inStep_mem (show InStep c [] w from h) st hst
    · exfalso
      cases y <;> first | exact hy ⟨_, rfl⟩ | exact h
  | b, x :: given, y :: w, h, st, hst => by
    by_cases hy : ∃ c, y = .changeHashBits c
    · obtain ⟨c, rfl⟩ := hy
      rcases List.mem_cons.1 hst with rfl | hst
      · exact .inl ⟨c, rfl⟩
      · exact inStep_mem (show InStep c (x :: given) w from h) st hst
    · have h : y = x.cut b ∧ InStep b given w := by
        cases y <;> first | exact absurd ⟨_, rfl⟩ hy | exact h
      rcases List.mem_cons.1 hst with rfl | hst
      · exact .inr ⟨x, by simp, b, h.1⟩
      · rcases inStep_mem h.2 st hst with k | ⟨z, k1, k2⟩
        · exact .inl k
        · exact .inr ⟨z, by simp [k1], k2⟩

theorem inStep_mem' : ∀ {w : List ProofStep} {b : Nat} {given : List ProofStep}, InStep b given w → ∀ x ∈ given, ∃ b, x.cut b ∈ w
  | [], b, [], h, x, hx => by cases hx
  | [], b, y :: given, h, x, hx => by cases h
  | y :: w, b, given, h, x, hx => by
    by_cases hy : ∃ c, y = .changeHashBits c
    · obtain ⟨c, rfl⟩ := hy
      have h : InStep c given w := by cases given <;> exact h
      obtain ⟨b, k⟩ := inStep_mem' h x hx
      exact ⟨b, by simp [k]⟩
    · cases given with
      | nil => cases hx
      | cons z given =>
        have h : y = z.cut b ∧ InStep b given w := by
          cases y <;> first | exact absurd ⟨_, rfl⟩ hy | exact h
        rcases List.mem_cons.1 hx with rfl | hx
        · exact ⟨b, by rw [h.1]; simp⟩
        · obtain ⟨b, k⟩ := inStep_mem' h.2 x hx
          exact ⟨b, by simp [k]⟩

theorem mem_addsOf {c : List Lit} : ∀ {L : List ProofStep}, .addClause c ∈ L → c ∈ addsOf L
  | x :: L, h => by
    by_cases hx : ∃ d, x = .addClause d
    · obtain ⟨d, rfl⟩ := hx
      rcases List.mem_cons.1 h with h | h
      · cases h; exact List.mem_cons_self
      · exact List.mem_cons_of_mem _ (mem_addsOf h)
    · have e : addsOf (x :: L) = addsOf L := by
        cases x <;> first | exact absurd ⟨_, rfl⟩ hx | rfl
      rw [e]
      rcases List.mem_cons.1 h with h | h
      · exact absurd ⟨c, h.symm⟩ hx
      · exact mem_addsOf h

theorem cut_add {x : ProofStep} {b : Nat} {c : List Lit} (h : .addClause c = x.cut b) : x = .addClause c := by
  cases x <;> simp [ProofStep.cut] at h ⊢
  exact h.symm

theorem cut_model {x : ProofStep} {b : Nat} {a : List Lit} (h : .model a = x.cut b) : x = .model a := by
  cases x <;> simp [ProofStep.cut] at h ⊢
  exact h.symm

end Varisat.Checker

namespace Varisat.Cli
open Spec.Lrat (split)

theorem addAll_of_execs {env : Checker.Env} (fs : List CnfFormula) : ∀ {css : List (List (List Lit))} {s s' : Checker.St},
    fs.mapM CnfFormula.iter = some css → Checker.execs env (css.flatten.map .add) s = .ok () s' → addAll env fs s = .ok () s' := by
  induction fs with
  | nil =>
    intro css s s' h1 h2
    obtain rfl : [] = css := by simpa using h1
    exact h2
  | cons f fs ih =>
    intro css s s' h1 h2
    rw [List.mapM_cons] at h1
    unfold addAll
    cases hf : f.iter with
    | none => rw [hf] at h1; cases h1
    | some cs =>
      rw [hf] at h1
      cases hg : fs.mapM CnfFormula.iter with
      | none => rw [hg] at h1; cases h1
      | some css' =>
        rw [hg] at h1
        obtain rfl : cs :: css' = css := by simpa using h1
        rw [List.flatten_cons, List.map_append] at h2
        obtain ⟨t, k1, k2⟩ := Checker.execs_append.1 h2
        simp only [k1]
        exact ih hg k2

/-- A file parsed at once is also parsed in chunks. -/
theorem parse_chunks {i : Source} {f : CnfFormula} {cs : List (List Lit)} (h : DimacsParser.parse [i.chunks.flatten] = .ok f)
    (hc : f.iter = some cs) : ∃ p fs css, DimacsParser.parseIncremental .new (i.chunks.map (·, true)) true = (p, fs, none) ∧
      fs.mapM CnfFormula.iter = some css ∧ css.flatten = cs := by
  obtain ⟨k1, _, _, css, rest, k4, k5, k6, k7⟩ := C05.exactly_once (i.chunks.map (·, true)) true
  rcases hp : DimacsParser.parseIncremental .new (i.chunks.map (·, true)) true with ⟨p, fs, err⟩
  rw [hp] at k1 k4
  cases err with
  | some x =>
    exfalso
    have e1 : (i.chunks.map (·, true)).map (fun c => (c.1, false)) = i.chunks.map (·, false) := by simp
    rw [e1, DimacsParser.parseIncremental_whole _ .new rfl] at k1
    unfold DimacsParser.parse at h
    rw [DimacsParser.parseIncremental_whole [_] .new rfl] at h
    simp only [List.flatten_cons, List.flatten_nil, List.append_nil] at h
    generalize DimacsParser.whole .new i.chunks.flatten = z at h k1
    obtain ⟨z1, z2, z3⟩ := z
    simp only at k1
    subst k1
    cases h
  | none =>
    obtain ⟨f', css', j1, j2, j3⟩ := C05.taken_is_parse _ p fs hp
    rw [List.map_map, show ((fun x => x.1) ∘ fun x : Bytes => (x, true)) = id from rfl, List.map_id, h] at j1
    obtain rfl : f = f' := by injection j1
    rw [hc] at j3
    exact ⟨p, fs, css', rfl, j2, (Option.some.inj j3).symm⟩

/-- What is printed if nothing fails. -/
theorem runCheck_ok {env : Checker.Env} {log : Log} (hl : log.OneLine) {i : Source} (hi : i.fails = false) {f : CnfFormula}
    {cs : List (List Lit)} (hf : DimacsParser.parse [i.chunks.flatten] = .ok f) (hcs : f.iter = some cs) {K0 K : Checker.St}
    (h0 : Checker.execs env (cs.map .add) {} = .ok () K0) {fill : Nat → Nat} {bs : Bytes}
    (hK : Checker.checkProof env fill bs K0 = .ok () K) :
    ∃ out, runCheck env log { input := some i, proof := some bs, fill } = some (out, 0) ∧ verdicts out = [ascii "VERIFIED"] ∧
      (ascii "t UNSAT" ∈ outLines out ↔ .unsat ∈ K.tout) ∧ (ascii "t SAT" ∈ outLines out ↔ ∃ m, .model m ∈ K.tout) := by
  obtain ⟨p, fs, css, h1, h2, rfl⟩ := parse_chunks hf hcs
  have h3 := addAll_of_execs fs h2 h0
  have hrun : runCheck env log { input := some i, proof := some bs, fill } =
      some (logLine log.banner1 ++ logLine log.banner2 ++ logLine log.reading ++ log.solving.flatMap logLine ++ logLine log.proof ++
        printSteps {} K.tout ++ ascii "s VERIFIED" ++ [10], 0) := by
    unfold runCheck
    simp only [hi, h1, h3, hK, Bool.not_true, Bool.false_eq_true, if_false]
  have hcom : Comments (logLine log.banner1 ++ logLine log.banner2 ++ logLine log.reading ++ log.solving.flatMap logLine ++ logLine log.proof) :=
    ((((hl.comments (o := log.banner1) (by simp)).append (hl.comments (o := log.banner2) (by simp))).append
      (hl.comments (o := log.reading) (by simp))).append hl.solving).append (hl.comments (o := log.proof) (by simp))
  generalize logLine log.banner1 ++ logLine log.banner2 ++ logLine log.reading ++ log.solving.flatMap logLine ++ logLine log.proof = pre at hrun hcom
  have hpl := ((Comments.plainly hcom).append (Plainly.steps K.tout)).congr (v := .unsat ∈ K.tout) (by simp)
  have e1 : pre ++ printSteps {} K.tout ++ ascii "s VERIFIED" ++ [10] = pre ++ printSteps {} K.tout ++ (ascii "s " ++ ascii "VERIFIED" ++ [10]) := by
    rw [show ascii "s VERIFIED" = ascii "s " ++ ascii "VERIFIED" by decide]
    simp only [List.append_assoc]
  obtain ⟨v1, v2⟩ := hpl.verdict (ascii "VERIFIED") (by decide)
  rw [← e1] at v1 v2
  refine ⟨_, hrun, v1, v2, ?_⟩
  obtain ⟨ls, c1, c2⟩ := hcom
  obtain ⟨ms, d1⟩ := printSteps_lines K.tout {}
  have k := (c1.append d1.is).append (IsLines.one (l := ascii "s VERIFIED") (by decide))
  rw [← List.append_assoc] at k
  rw [k.lines]
  simp only [List.mem_append, d1.sat]
  constructor
  · rintro (((q | q) | q) | q)
    · have := c2 _ q
      unfold Comment at this
      exact absurd this (by decide)
    · exact q
    · exact absurd q (by decide)
    · exact absurd q (by decide)
  · intro q
    exact .inl (.inl (.inr q))

end Varisat.Cli
