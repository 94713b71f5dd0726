import Verif.Proof.CliProof
import Verif.Proof.DimacsRange
import Verif.Props.C48_Cli
import Verif.Props.C50_CliCheck
import Verif.Props.C52_ProofFile
import Verif.Props.C56_CliDecides
/-!
# C57: a proof written for a formula is verified by `--check`

The clauses of a DIMACS file are added to a solver that writes a proof in the native format; `solve` is called and the
proof is closed. Then `varisat --check` on the formula and the proof file exits with 0 and prints `s VERIFIED`, and the
transcript tells the answer: `t SAT` exactly if the answer was "satisfiable", `t UNSAT` only if it was "unsatisfiable",
and also whenever it was, provided that the file has no empty clause. With an empty clause it may be missing
(`C57.silent`).

Partial as C52: at no point more than 2^32 clauses in the proof and no clause with a literal and its negation, as the
transcript of `--check` cannot name the variable of such a clause.
-/
namespace Varisat.Solver
open Api (Hist Call added Plain)
open Checker (Accepting execs checkProof)
open Checker.Told (Talks)
open Fmt (writeStep)

variable {α : Type} [LinearOrder α] {env : Out.Env} {check : Bool}

/-- What the last proof file in `o'` makes a checker report after the clauses `C`. -/
def C57.Reports (cenv : Checker.Env) (C : List (List Lit)) (r : Nat) (o' : Out.Sess) : Prop :=
  ∃ file, o'.files.getLast? = some file ∧ ∀ fill, ∃ K0 K,
    execs cenv (C.map .add) {} = .ok () K0 ∧ checkProof cenv fill (file.written.flatMap writeStep) K0 = .ok () K ∧
    (.unsat ∈ K.tout → r = 0) ∧ (r = 0 → [] ∉ C → .unsat ∈ K.tout) ∧ ((∃ m, .model m ∈ K.tout) ↔ r = 1)

theorem canonical_sat {c d : List Lit} (h : copyCanonical c = copyCanonical d) (τ : Asg) : clauseSat τ c ↔ clauseSat τ d := by
  unfold clauseSat
  constructor <;> rintro ⟨l, h1, h2⟩
  · exact ⟨l, mem_canonical.1 (h ▸ mem_canonical.2 h1), h2⟩
  · exact ⟨l, mem_canonical.1 (h ▸ mem_canonical.2 h1), h2⟩

theorem canonical_nil {c : List Lit} (h : (copyCanonical c).1 = []) : c = [] := by
  cases c with
  | nil => rfl
  | cons l c =>
    have : l ∈ (copyCanonical (l :: c)).1 := mem_canonical.2 (by simp)
    rw [h] at this; cases this

/-- What is in the log after a single `solve`. -/
theorem solved_log {s : St α} {h : Hist} {r : Nat} (x : Exec s (h ++ [(.solve, [r])])) (hno : NoSolve h) (hp : Plain h)
    (hlen : s.vars.gfs.len < 2 ^ 32) :
    (∀ c, .addClause c ∈ s.log → ∃ d ∈ added h, copyCanonical c = copyCanonical d) ∧ ((∃ a, .model a ∈ s.log) ↔ r = 1) := by
  generalize hh : h ++ [((.solve : Api.Call), [r])] = H at x
  cases x with
  | new e => simp at hh
  | @call s1 s h1 op r1 e x he hs =>
    obtain ⟨hh1, hh2⟩ := List.append_inj' hh rfl
    subst hh1; clear hh
    simp only [List.cons.injEq, Prod.mk.injEq, and_true] at hh2
    obtain ⟨hop, rfl⟩ := hh2
    cases op with
    | solve n =>
      obtain ⟨b, k1, k2⟩ := solve_step hs
      obtain ⟨a, ids, hq, hi⟩ := x.inv
      obtain ⟨g1, _⟩ := hi.step_grows hs
      obtain ⟨-, t2, -, t4⟩ := x.tells hno hp (by omega)
      have hns : s1.sat ≠ .sat := by
        intro q
        have := x.found_iff.1 q
        revert this
        clear x hs t4 hp hi g1 hq
        suffices Api.found h = false by rw [this]; simp
        induction h using List.reverseRecOn with
        | nil => rfl
        | append_singleton h y ih =>
          rw [found_snoc, ih (fun z hz => hno z (by simp [hz]))]
          have := hno y (by simp)
          obtain ⟨c, r⟩ := y
          cases c <;> first | rfl | exact absurd rfl this
      obtain ⟨l1, l2, l3⟩ := St.solve_logs k1
      have hr : r = 1 ↔ s.sat = .sat := by
        simp only [List.cons.injEq, and_true] at k2
        rw [k2, l3]
        cases s.sat <;> simp
      have pre : (∀ c, .addClause c ∈ s1.log → ∃ d ∈ added h, copyCanonical c = copyCanonical d) ∧ ∀ a, ProofStep.model a ∉ s1.log := by
        refine ⟨fun c hc => t4 c (Checker.mem_addsOf hc), fun a ha => ?_⟩
        rcases t2 _ ha with q | ⟨c, q⟩
        · exact q
        · cases q
      rw [hr]
      by_cases hu : s1.sat = .unknown
      · have key := l2 hu
        unfold St.Answer at key
        cases hsat : s.sat <;> rw [hsat] at key <;> simp only at key
        · obtain ⟨L, m1, m2⟩ := key
          rw [m1]
          refine ⟨fun c hc => ?_, ⟨fun ⟨a, hm⟩ => ?_, fun q => by cases q⟩⟩
          · rcases List.mem_append.1 hc with hc | hc
            · exact pre.1 c hc
            · exact absurd (m2 _ hc) id
          · rcases List.mem_append.1 hm with hc | hc
            · exact absurd hc (pre.2 a)
            · exact absurd (m2 _ hc) id
        · obtain ⟨L, y, m1, m2, ⟨b, rfl⟩⟩ := key
          rw [m1]
          refine ⟨fun c hc => ?_, ⟨fun _ => rfl, fun _ => ⟨b, by simp⟩⟩⟩
          rcases List.mem_append.1 hc with hc | hc
          · rcases List.mem_append.1 hc with hc | hc
            · exact pre.1 c hc
            · exact absurd (m2 _ hc) id
          · simp at hc
        · obtain ⟨L, m1, m2⟩ := key
          rw [m1]
          refine ⟨fun c hc => ?_, ⟨fun ⟨a, hm⟩ => ?_, fun q => by cases q⟩⟩
          · rcases List.mem_append.1 hc with hc | hc
            · exact pre.1 c hc
            · exact absurd (m2 _ hc) id
          · rcases List.mem_append.1 hm with hc | hc
            · exact absurd hc (pre.2 a)
            · exact absurd (m2 _ hc) id
        · obtain ⟨L, y, m1, m2, ⟨c', hs', rfl⟩⟩ := key
          rw [m1]
          refine ⟨fun c hc => ?_, ⟨fun ⟨a, hm⟩ => ?_, fun q => by cases q⟩⟩
          · rcases List.mem_append.1 hc with hc | hc
            · rcases List.mem_append.1 hc with hc | hc
              · exact pre.1 c hc
              · exact absurd (m2 _ hc) id
            · simp at hc
          · rcases List.mem_append.1 hm with hc | hc
            · rcases List.mem_append.1 hc with hc | hc
              · exact absurd hc (pre.2 a)
              · exact absurd (m2 _ hc) id
            · simp at hc
      · obtain ⟨m1, m2⟩ := l1 hu
        rw [m1, m2]
        exact ⟨pre.1, ⟨fun ⟨a, ha⟩ => absurd ha (pre.2 a), fun q => absurd q hns⟩⟩
    | _ => cases hop

/-- A checker with a transcript reports the answer of the solver. -/
theorem C57.reports_partial {cenv : Checker.Env} (hca : Talks cenv) {s : St α} {o o' : Out.Sess} {h : Hist} {r : Nat}
    (x : Joint env (some .varisat) check s o (h ++ [(.solve, [r])])) (hno : NoSolve h) (hasm : NoAsm h)
    (hs : C51.Small (some .varisat) s) (hp : Plain h) (hvars : s.vars.data.length ≤ 2 ^ 31)
    (ht : ∀ c ∈ added h, ∀ l ∈ c, l.neg ∉ c) (hc : Out.close env o = some (o', .unit)) : C57.Reports cenv (added h) r o' := by
  have ha := env.chk.lenient_accepting
  have x := x.lenient_of_close hc
  have hc : Out.close env.lenient o = some (o', .unit) := hc
  have hb : before (h ++ [(.solve, [r])]) = h := by
    rw [before_snoc (.inr rfl), before_of hno]
  have hasm' : NoAsm (h ++ [(.solve, [r])]) := by
    intro y hy ls hl
    rcases List.mem_append.1 hy with hy | hy
    · exact hasm y hy ls hl
    · rw [List.mem_singleton.1 hy] at hl; cases hl
  have key := fun fill => written_accepted ha hca.1 fill x ⟨hs.1, hs.2, x.exec.fine_of_noAsm hasm'⟩ (by rw [hb]; exact hp)
    (x.exec.fits hvars fun ls r hl => by rw [hasm' _ hl ls rfl]; decide)
    (by rw [hb]; exact fun _ => ht) hc
  rw [hb] at key
  obtain ⟨given, w, h1, -⟩ := key (fun _ => 0)
  refine ⟨⟨.varisat, given, w⟩, by rw [h1]; simp, fun fill => ?_⟩
  obtain ⟨given', w', k1, K0, K, k2, k3, -, k5, k6, s0, Q, w0, K1, x0, q1, q2, q3, q4, q5⟩ := key fill
  rw [h1] at k1
  have := List.append_cancel_left k1
  cases this
  refine ⟨K0, K, k2, k3, ?_⟩
  rw [C52.answer x.exec hasm'] at k6
  obtain ⟨lg1, lg2⟩ := solved_log x.exec hno hp hs.1
  have told : Checker.Told.Told K :=
    Checker.Told.of (Checker.Told.pres_proof hca fill _) k3 (Checker.Told.of (Checker.Told.pres_execs hca _) k2 Checker.Told.new)
  -- what the steps of the file add
  have sub : ∀ st, st ∈ Checker.restOf s0.log ++ Q → st ∈ s.log := by
    intro st hst
    rw [q1]
    rcases List.mem_append.1 hst with hst | hst
    · exact List.mem_append_left _ (Checker.mem_restOf hst)
    · exact List.mem_append_right _ hst
  have addsW : ∀ c, .addClause c ∈ w0 → ∃ d ∈ added h, copyCanonical c = copyCanonical d := by
    intro c hm
    rcases Checker.inStep_mem q3 _ hm with ⟨b, k⟩ | ⟨y, y1, b, y2⟩
    · cases k
    · rw [Checker.cut_add y2] at y1
      exact lg1 c (sub _ y1)
  have addsF : ∀ c ∈ Checker.added ((added h).map .add ++ w0.map .step), ∃ d ∈ added h, copyCanonical c = copyCanonical d := by
    intro c hm
    unfold Checker.added at hm
    rw [List.flatMap_append, List.mem_append, List.mem_flatMap, List.mem_flatMap] at hm
    rcases hm with ⟨y, y1, y2⟩ | ⟨y, y1, y2⟩
    · obtain ⟨d, d1, rfl⟩ := List.mem_map.1 y1
      rw [List.mem_singleton.1 y2]
      exact ⟨d, d1, rfl⟩
    · obtain ⟨st, d1, rfl⟩ := List.mem_map.1 y1
      cases st with
      | addClause c' =>
        rw [List.mem_singleton.1 y2]
        exact addsW c' d1
      | _ => cases y2
  have modW : (∃ a, .model a ∈ w0) ↔ r = 1 := by
    rw [← lg2]
    constructor
    · rintro ⟨a, hm⟩
      rcases Checker.inStep_mem q3 _ hm with ⟨b, k⟩ | ⟨y, y1, b, y2⟩
      · cases k
      · rw [Checker.cut_model y2] at y1
        exact ⟨a, sub _ y1⟩
    · rintro ⟨a, hm⟩
      rw [q1] at hm
      have hq : .model a ∈ Checker.restOf s0.log ++ Q := by
        rcases List.mem_append.1 hm with hm | hm
        · obtain ⟨-, t2, -⟩ := x0.tells hno hp (Nat.lt_of_le_of_lt q2 hs.1)
          rcases t2 _ hm with q | ⟨c, q⟩
          · exact absurd q id
          · cases q
        · exact List.mem_append_right _ hm
      obtain ⟨b, k⟩ := Checker.inStep_mem' q3 _ hq
      exact ⟨a, k⟩
  obtain ⟨o1, e1, e2, e3⟩ := Checker.said_execs (Checker.Ran.init (env := cenv)) q4
  obtain ⟨o2, f1, f2, f3⟩ := Checker.said_conflicts q5
  have hout : K.out = o1 ++ o2 := by
    rw [f1]
    show K1.out ++ o2 = _
    rw [e1]
    rfl
  refine ⟨fun hu => ?_, fun hr hne => ?_, ?_⟩
  · have hun := Checker.conflicts_sound q4 q5 hu
    rcases C45.every_answer (h2 := []) x.exec hp with ⟨k, τ, t1, -⟩ | ⟨k, -⟩
    · exfalso
      refine hun τ fun c hm => ?_
      obtain ⟨d, d1, d2⟩ := addsF c hm
      exact (canonical_sat d2 τ).2 (t1 d d1)
    · simpa using k
  · obtain ⟨st, hst, hem⟩ := k6 hr
    cases st with
    | addClause id c =>
      exfalso
      obtain rfl : c = [] := hem
      rw [hout] at hst
      rcases List.mem_append.1 hst with hst | hst
      · obtain ⟨d, d1, d2⟩ := e2 id _ hst
        obtain ⟨d', d3, d4⟩ := addsF d d1
        rw [d4] at d2
        rw [canonical_nil d2.symm] at d3
        exact hne d3
      · obtain ⟨d, d1, _⟩ := f2 id _ hst
        cases d1
    | atClause id red c ps =>
      obtain rfl : c = [] := hem
      exact told.1 id red ps hst
    | _ => exact absurd hem id
  · rw [← told.2, ← modW, hout]
    constructor
    · rintro ⟨a, hm⟩
      rcases List.mem_append.1 hm with hm | hm
      · obtain ⟨b, k⟩ := e3.2 ⟨a, hm⟩
        rcases List.mem_append.1 k with k | k
        · obtain ⟨d, _, k⟩ := List.mem_map.1 k; cases k
        · obtain ⟨st, k1, k⟩ := List.mem_map.1 k
          cases k
          exact ⟨b, k1⟩
      · exact (f3.2 ⟨a, hm⟩).elim
    · rintro ⟨a, hm⟩
      obtain ⟨b, k⟩ := e3.1 ⟨a, List.mem_append_right _ (List.mem_map.2 ⟨_, hm, rfl⟩)⟩
      exact ⟨b, List.mem_append_left _ k⟩

end Varisat.Solver

namespace Varisat.Cli
open Solver Api
open Checker (Accepting)
open Checker.Told (Talks)
open Fmt (writeStep)

variable {α : Type} [LinearOrder α] {env : Out.Env} {check : Bool}

/-- The number of variables for an input. -/
theorem C57.vars_le {i : Source} {f : CnfFormula} {cs : List (List Lit)} (hf : DimacsParser.parse [i.chunks.flatten] = .ok f)
    (hcs : f.iter = some cs) {s : St α} {r : List Nat} (x : Exec s ((cs.map fun c => (.addClause c, [])) ++ [(.solve, r)])) :
    s.vars.data.length ≤ 2 ^ 28 ∧ s.vars.gfs.len < 2 ^ 32 := by
  obtain ⟨a, h1, h2⟩ := x.sizes
  have h3 : a.next ≤ 2 ^ 28 := by
    refine C54.next_le h1 (fun y hy => ?_) (fun y hy => ?_)
    · rcases List.mem_append.1 hy with hy | hy
      · exact plain_clauses cs y hy
      · rw [List.mem_singleton.1 hy]; exact ⟨(fun u h => by cases h), (fun h => by cases h)⟩
    · rcases List.mem_append.1 hy with hy | hy
      · obtain ⟨c, hc, rfl⟩ := List.mem_map.1 hy
        exact DimacsParser.parse_range hf hcs c hc
      · rw [List.mem_singleton.1 hy]; trivial
  have h4 := h2.dlen
  have h5 := h2.slen
  omega

/-- Writing the proof and checking it. `hnet` bounds the number of clauses. -/
theorem C57.verified_partial {cenv : Checker.Env} (hca : Talks cenv) {log : Log} (hl : log.OneLine)
    {i : Source} (hi : i.fails = false) {f : CnfFormula} {cs : List (List Lit)} (hf : DimacsParser.parse [i.chunks.flatten] = .ok f)
    (hcs : f.iter = some cs) (ht : ∀ c ∈ cs, ∀ l ∈ c, l.neg ∉ c) {s : St α} {o o' : Out.Sess} {r : Nat}
    (x : Joint env (some .varisat) check s o ((cs.map fun c => (.addClause c, [])) ++ [(.solve, [r])]))
    (hnet : ∀ M, M <+: s.log → netClauses M ≤ 2 ^ 32) (hc : Out.close env o = some (o', .unit)) :
    ∃ file, o'.files.getLast? = some file ∧ ∀ fill, ∃ out,
      runCheck cenv log { input := some i, proof := some (file.written.flatMap writeStep), fill } = some (out, 0) ∧
      verdicts out = [ascii "VERIFIED"] ∧ (ascii "t SAT" ∈ outLines out ↔ r = 1) ∧
      (ascii "t UNSAT" ∈ outLines out → r = 0) ∧ (r = 0 → [] ∉ cs → ascii "t UNSAT" ∈ outLines out) := by
  have key := C57.reports_partial hca x (fun y hy => by obtain ⟨c, -, rfl⟩ := List.mem_map.1 hy; exact fun h => by cases h)
    (fun y hy ls hl => by obtain ⟨c, -, rfl⟩ := List.mem_map.1 hy; cases hl) ⟨(C57.vars_le hf hcs x.exec).2, fun _ => hnet⟩ (plain_clauses cs)
    (Nat.le_trans (C57.vars_le hf hcs x.exec).1 (by decide))
    (by rw [added_clauses]; exact ht) hc
  rw [added_clauses] at key
  obtain ⟨file, h1, h2⟩ := key
  refine ⟨file, h1, fun fill => ?_⟩
  obtain ⟨K0, K, k1, k2, k3, k4, k5⟩ := h2 fill
  obtain ⟨out, q1, q2, q3, q4⟩ := runCheck_ok hl hi hf hcs k1 k2
  exact ⟨out, q1, q2, q4.trans k5, fun h => k3 (q3.1 h), fun h h' => q3.2 (k4 h h')⟩

/-! ### Test cases -/

open Sample (cl see_joint penv penv_accepting)

/-- The hypotheses of `C57.verified_partial` for a text and an answer. -/
def C57.Meets (text : Bytes) (cs : List (List Lit)) (r : Nat) : Prop :=
  (∃ f, DimacsParser.parse [text] = .ok f ∧ f.iter = some cs) ∧ (∀ c ∈ cs, ∀ l ∈ c, l.neg ∉ c) ∧
    ∃ (s : St Nat) (o o' : Out.Sess), Joint penv (some .varisat) false s o ((cs.map fun c => (.addClause c, [])) ++ [(.solve, [r])]) ∧
      (∀ M, M <+: s.log → netClauses M ≤ 2 ^ 32) ∧ Out.close penv o = some (o', .unit)

/-- The output of `--check` on the proof written. -/
def C57.checked (text : Bytes) (o : Out.Sess) : Option (Bytes × Nat) :=
  match Out.close penv o with
  | some (o', .unit) =>
    match o'.files.getLast? with
    | some file => runCheck penv.chk {} { input := some ⟨[text], false⟩, proof := some (file.written.flatMap writeStep) }
    | none => none
  | _ => none

theorem penv_talks : Talks penv.chk := ⟨penv_accepting, rfl⟩

theorem C57.meets {text : Bytes} {cs : List (List Lit)} {r : Nat} (h1 : (match DimacsParser.parse [text] with
      | .ok f => f.iter
      | _ => none) = some cs) (h2 : ∀ c ∈ cs, ∀ l ∈ c, l.neg ∉ c)
    (h3 : Sample.seeJoint (some .varisat) false (fun s o rs => (rs, decide (s.log.length ≤ 20), match Out.close penv o with | some (_, .unit) => true | _ => false))
      (cs.map .addClause ++ [.solve 20]) = some (cs.map (fun _ => []) ++ [[r]], true, true)) : C57.Meets text cs r := by
  refine ⟨?_, h2, ?_⟩
  · split at h1
    · rename_i f hf; exact ⟨f, hf, h1⟩
    · cases h1
  · obtain ⟨s, o, rs, k1, k2⟩ := see_joint h3
    simp only [Prod.mk.injEq, decide_eq_true_eq] at k2
    obtain ⟨rfl, k4, k6⟩ := k2
    split at k6
    · rename_i o' hc
      refine ⟨s, o, o', ?_, fun M hM => ?_, hc⟩
      · rw [List.map_append, List.zip_append (by simp)] at k1
        have e : (List.map Op.call (cs.map .addClause)).zip (cs.map fun _ => ([] : List Nat)) = cs.map fun c => (.addClause c, []) := by
          rw [List.map_map]
          clear h1 h2 h3 k1
          induction cs with
          | nil => rfl
          | cons c cs ih => simp only [List.map_cons, List.zip_cons_cons, ih]; rfl
        rw [e] at k1
        exact k1
      · have h4 : ∀ M : List ProofStep, netClauses M ≤ M.length := by
          intro M
          induction M with
          | nil => exact Int.le_refl _
          | cons st M ih =>
            cases st <;> simp only [netClauses, List.length_cons] <;> (try split) <;> omega
        have := h4 M
        have := hM.length_le
        omega
    · cases k6

def litsOf (cs : List (List Int)) : List (List Lit) := cs.map fun c => c.map Demo.lit

/-- An unsatisfiable formula. -/
example : C57.Meets (ascii "1 2 0 1 -2 0 -1 2 0 -1 -2 0") (litsOf [[1, 2], [1, -2], [-1, 2], [-1, -2]]) 0 :=
  C57.meets (by decide +kernel) (by decide) (by decide +kernel)

/-- A satisfiable formula. -/
example : C57.Meets (ascii "1 2 0 -1 2 3 0 -2 -3 0") (litsOf [[1, 2], [-1, 2, 3], [-2, -3]]) 1 :=
  C57.meets (by decide +kernel) (by decide) (by decide +kernel)

/-- With an empty clause the answer is "unsatisfiable" and the proof is verified, but there is no line `t UNSAT`. -/
theorem C57.silent : C57.Meets (ascii "1 2 0 0") (litsOf [[1, 2], []]) 0 ∧
    ∃ (s : St Nat) (o : Out.Sess), Joint penv (some .varisat) false s o [(.addClause (Demo.cl [1, 2]), []), (.addClause [], []), (.solve, [0])] ∧
      C57.checked (ascii "1 2 0 0") o = some (ascii "s VERIFIED\n", 0) ∧ ascii "t UNSAT" ∉ outLines (ascii "s VERIFIED\n") := by
  refine ⟨C57.meets (by decide +kernel) (by decide) (by decide +kernel), ?_⟩
  obtain ⟨s, o, rs, k1, k2⟩ := see_joint (f := some .varisat) (check := false)
    (g := fun _ o rs => (rs, C57.checked (ascii "1 2 0 0") o)) (ops := [.addClause (Demo.cl [1, 2]), .addClause [], .solve 20])
    (x := ([[], [], [0]], some (ascii "s VERIFIED\n", 0))) (by decide +kernel)
  simp only [Prod.mk.injEq] at k2
  obtain ⟨rfl, k2⟩ := k2
  exact ⟨s, o, k1, k2, by decide +kernel⟩

/-- With a clause that has a literal and its negation, over a variable that was not seen before, `--check` panics when it
reads the formula, whatever the proof is: the transcript has no name for the variable. -/
theorem C57.taut_panics (log : Log) (bs : Option Bytes) (fill : Nat → Nat) :
    runCheck Demo.env log { input := some ⟨[ascii "1 -1 0"], false⟩, proof := bs, fill } = none := by
  have h : (match addAll Demo.env (DimacsParser.parseIncremental .new [(ascii "1 -1 0", true)] true).2.1 {} with
      | .error .panic _ => true | _ => false) = true := by decide +kernel
  unfold runCheck
  simp only [Bool.not_true, Bool.false_eq_true, if_false, List.map_cons, List.map_nil]
  generalize DimacsParser.parseIncremental .new [(ascii "1 -1 0", true)] true = p at h ⊢
  obtain ⟨p, fs, e⟩ := p
  split at h
  · rename_i q; simp only at q ⊢; rw [q]
  · cases h

end Varisat.Cli
