import Verif.Proof.Solver.WrittenFile
import Verif.Proof.Solver.Fits
import Verif.Props.C51_SelfCheck
/-!
# C52: a checker accepts the proof file

A solver was used with `write_proof` in the native format, and `close_proof` returned without an error. Then a checker
that is given the clauses added before the first `solve`, and the file, accepts it. It refutes the formula exactly if the
solver did.

`added (before h)` are the clauses of the calls of `add_clause` before the first `solve`; later ones are part of the
proof. `K0` is the checker after `add_clause` for them and `K` after `check_proof` on the bytes of the file.

Partial, beyond what C51 leaves out: no variables were hidden or observed before the first `solve`. Otherwise the
variables of the proof are not those of the user and the claim is false (`C52.hidden_rejected`). A checker with a
transcript is only known to accept it if no clause contains both a literal and its negation.
-/
namespace Varisat.Solver
open Api (Hist added Plain)
open Checker (Accepting execs checkProof)
open Fmt (writeStep)
open Sample (cl asm see_joint penv penv_accepting)

variable {α : Type} [LinearOrder α] {env : Out.Env} {check : Bool}

/-- What a checker makes of the last proof file in `o'` after the clauses `C`: it accepts it and refutes the formula if
and only if `u`. -/
def C52.Accepts (cenv : Checker.Env) (C : List (List Lit)) (u : Prop) (o' : Out.Sess) : Prop :=
  ∃ file, o'.files.getLast? = some file ∧ file.format = .varisat ∧ ∀ fill, ∃ K0 K,
    execs cenv (C.map .add) {} = .ok () K0 ∧ checkProof cenv fill (file.written.flatMap writeStep) K0 = .ok () K ∧
    (K.unsat = true ↔ u) ∧ (u → Checker.Refutes K.out)

/-- For the examples. -/
instance : DecidablePred StepFits := fun st => by
  cases st <;> unfold StepFits <;> try infer_instance
  all_goals
    rename_i g v
    cases v
    · exact decidable_of_iff (g < 2 ^ 32) (by simp)
    · rename_i v; exact decidable_of_iff (g < 2 ^ 32 ∧ v < 2 ^ 32) (by simp)

/-- Without assumptions the answer 0 of `solve` says that the formula is unsatisfiable. -/
theorem C52.answer {s : St α} {h : Hist} {r : Nat} (x : Exec s (h ++ [(.solve, [r])])) (hn : NoAsm (h ++ [(.solve, [r])])) :
    s.sat = .unsat ↔ r = 0 := by
  have h3 := x.notUnder_of_noAsm hn
  generalize hh : h ++ [((.solve : Api.Call), [r])] = H at x
  cases x with
  | new e => simp at hh
  | @call s1 s h1 op r1 e x he hs =>
    obtain ⟨-, hh⟩ := List.append_inj' hh rfl
    simp only [List.cons.injEq, Prod.mk.injEq, and_true] at hh
    obtain ⟨hop, rfl⟩ := hh
    cases op with
    | solve n =>
      obtain ⟨a, ids, hr, hi⟩ := x.inv
      obtain ⟨⟨t, b⟩, k1, k2⟩ := bind_inv (show (s1.solve e n >>= fun q => pure (q.1, [if q.2 then 1 else 0])) = .ok (s, [r]) from hs)
      have k2 : (Except.ok (t, [if b then 1 else 0]) : Except Stop (St α × List Nat)) = .ok (s, [r]) := k2
      simp only [Except.ok.injEq, Prod.mk.injEq, List.cons.injEq, and_true] at k2
      obtain ⟨rfl, rfl⟩ := k2
      rcases hi.solve e n with k | ⟨t', b', k, -, k3, k4, -⟩
      · rw [k] at k1; cases k1
      · rw [k] at k1
        simp only [Except.ok.injEq, Prod.mk.injEq] at k1
        obtain ⟨rfl, rfl⟩ := k1
        cases b' with
        | true => rw [k4.1 rfl]; simp
        | false =>
          cases hq : t'.sat with
          | unknown => exact absurd hq k3
          | sat => exact absurd (k4.2 hq) (by simp)
          | unsat => simp
          | unsatUnder => exact absurd hq h3
    | _ => cases hop

theorem C52.accepted_of {cenv : Checker.Env} (hca : Accepting cenv) {s : St α} {o o' : Out.Sess} {h : Hist}
    (x : Joint env (some .varisat) check s o h) (l : Limits (some .varisat) s) (hp : Plain (before h))
    (hfit : ∀ st ∈ s.log, StepFits st) (ht : cenv.hasTranscript = true → ∀ c ∈ added (before h), ∀ l ∈ c, l.neg ∉ c)
    (hc : Out.close env o = some (o', .unit)) : C52.Accepts cenv (added (before h)) (s.sat = .unsat) o' := by
  have ha := env.chk.lenient_accepting
  have x := x.lenient_of_close hc
  have hc : Out.close env.lenient o = some (o', .unit) := hc
  have key := fun fill => written_accepted ha hca fill x l hp hfit ht hc
  obtain ⟨given, w, h1, -⟩ := key (fun _ => 0)
  refine ⟨⟨.varisat, given, w⟩, by rw [h1]; simp, rfl, fun fill => ?_⟩
  obtain ⟨given', w', k1, K0, K, k2, k3, -, k5, k6, -⟩ := key fill
  rw [h1] at k1
  have := List.append_cancel_left k1
  cases this
  exact ⟨K0, K, k2, k3, k5, k6⟩

/-- The number of variables of the proof is at most the number of variables created by the calls. -/
theorem C52.vars_le {s : St α} {h : Hist} (x : Exec s h) : ∃ a, Api.Abs.Run {} h a ∧ s.vars.data.length ≤ a.next := by
  obtain ⟨a, h1, h2⟩ := x.sizes
  exact ⟨a, h1, h2.dlen⟩

/-- The proof file of a history is accepted. There are at most 2^31 variables, and less than 2^64 assumptions in a call. -/
theorem C52.proof_file_partial {cenv : Checker.Env} (hca : Accepting cenv) {s : St α} {o o' : Out.Sess} {h : Hist}
    (x : Joint env (some .varisat) check s o h) (hs : C51.Small (some .varisat) s) (hn : ¬ C28.AfterSingle s.log)
    (hp : Plain (before h)) (hvars : s.vars.data.length ≤ 2 ^ 31) (hasm : ∀ ls r, (.assume ls, r) ∈ h → ls.length < 2 ^ 64)
    (ht : cenv.hasTranscript = true → ∀ c ∈ added (before h), ∀ l ∈ c, l.neg ∉ c)
    (hc : Out.close env o = some (o', .unit)) : C52.Accepts cenv (added (before h)) (s.sat = .unsat) o' :=
  C52.accepted_of hca x (C51.limits hs hn) hp (x.exec.fits hvars hasm) ht hc

/-- A single call of `solve` without assumptions: if the answer is "unsatisfiable", the checker refutes the clauses of
the user. -/
theorem C52.solve_once {cenv : Checker.Env} (hca : Accepting cenv) {s : St α} {o o' : Out.Sess} {h : Hist} {r : Nat}
    (x : Joint env (some .varisat) check s o (h ++ [(.solve, [r])])) (hno : NoSolve h) (hasm : NoAsm h)
    (hs : C51.Small (some .varisat) s) (hp : Plain h) (hvars : s.vars.data.length ≤ 2 ^ 31)
    (ht : cenv.hasTranscript = true → ∀ c ∈ added h, ∀ l ∈ c, l.neg ∉ c)
    (hc : Out.close env o = some (o', .unit)) : C52.Accepts cenv (added h) (r = 0) o' := by
  have hb : before (h ++ [(.solve, [r])]) = h := by
    rw [before_snoc (.inr rfl), before_of hno]
  have hasm' : NoAsm (h ++ [(.solve, [r])]) := by
    intro y hy ls hl
    rcases List.mem_append.1 hy with hy | hy
    · exact hasm y hy ls hl
    · rw [List.mem_singleton.1 hy] at hl; cases hl
  have key := C52.accepted_of hca x ⟨hs.1, hs.2, x.exec.fine_of_noAsm hasm'⟩ (by rw [hb]; exact hp)
    (x.exec.fits hvars fun ls r hl => by rw [hasm' _ hl ls rfl]; decide) (by rw [hb]; exact ht) hc
  rw [hb] at key
  rwa [propext (C52.answer x.exec hasm')] at key

/-- What a checker makes of the proof file after some clauses: whether it refutes the formula, or that it rejects the
file. -/
def C52.verdict (C : List (List Lit)) (o : Out.Sess) : Option (Option Bool) :=
  match Out.close penv o with
  | some (o', .unit) =>
    match o'.files.getLast?, execs penv.chk (C.map .add) {} with
    | some file, .ok () K0 =>
      match checkProof penv.chk (fun _ => 0) (file.written.flatMap writeStep) K0 with
      | .ok () K => some (some K.unsat)
      | .error _ _ => some none
    | _, _ => none
  | _ => none

open Sample in
/-- A concrete case for both theorems: six clauses, then an answer "unsatisfiable". The file is written with a transcript
in place and the checker refutes the formula. -/
example : ∃ (s : St Nat) (o o' : Out.Sess) (h : Hist), Joint penv (some .varisat) false s o (h ++ [(.solve, [0])]) ∧ NoSolve h ∧
    NoAsm h ∧ C51.Small (some .varisat) s ∧ ¬ C28.AfterSingle s.log ∧ Plain h ∧ s.vars.data.length ≤ 2 ^ 31 ∧
    (∀ c ∈ added h, ∀ l ∈ c, l.neg ∉ c) ∧ 6 ≤ (added h).length ∧ Out.close penv o = some (o', .unit) := by
  obtain ⟨s, o, rs, h1, h2⟩ := see_joint (f := some .varisat) (check := false)
    (g := fun s o rs => (rs, decide (s.vars.gfs.len < 2 ^ 32) && decide (s.log.length ≤ 20) &&
        s.log.all (fun st => match st with | .failedAssumptions _ _ => false | _ => true) && decide (s.vars.data.length ≤ 2 ^ 31),
        match Out.close penv o with | some (_, .unit) => true | _ => false))
    (ops := [cl [1, 2, 3], cl [-1, 2], cl [1, -2], cl [-1, -2, 3], cl [-3, 1], cl [-3, -2], .solve 20])
    (x := ([[], [], [], [], [], [], [0]], true, true)) (by decide +kernel)
  simp only [Prod.mk.injEq] at h2
  obtain ⟨rfl, h3, h4⟩ := h2
  simp only [Bool.and_eq_true, decide_eq_true_eq, List.all_eq_true] at h3
  split at h4
  · rename_i o' hc
    refine ⟨s, o, o', ([cl [1, 2, 3], cl [-1, 2], cl [1, -2], cl [-1, -2, 3], cl [-3, 1], cl [-3, -2]].map Op.call).map (·, []),
      h1, ?_, ?_, ⟨h3.1.1.1, fun _ M hM => ?_⟩, ?_, ?_, h3.2, by decide, by decide, hc⟩
    · intro x hx
      simp [cl, Op.call] at hx
      rcases hx with rfl | rfl | rfl | rfl | rfl | rfl <;> exact fun h => by cases h
    · intro x hx ls hl
      simp [cl, Op.call] at hx
      rcases hx with rfl | rfl | rfl | rfl | rfl | rfl <;> cases hl
    · have h4 : ∀ M : List ProofStep, netClauses M ≤ M.length := by
        intro M
        induction M with
        | nil => exact Int.le_refl _
        | cons st M ih =>
          cases st <;> simp only [netClauses, List.length_cons] <;> (try split) <;> omega
      have := h4 M
      have := hM.length_le
      omega
    · rintro ⟨L1, L2, l, hx, hL, -⟩
      have := h3.1.2 (.failedAssumptions [l] hx) (by rw [hL]; simp)
      cases this
    · intro x hx
      simp [cl, Op.call] at hx
      rcases hx with rfl | rfl | rfl | rfl | rfl | rfl <;> exact ⟨(fun u h => by cases h), (fun h => by cases h)⟩
  · cases h4

/-- Without the restriction on hidden variables the claim is false: a variable is created and hidden, its number is used
again by the clauses, and the solver finds that they are unsatisfiable. The checker, which knows the clauses when it
reads that the variable was deleted, rejects the file. -/
theorem C52.hidden_rejected : ∃ (s : St Nat) (o o' : Out.Sess) (h : Hist) (file : Out.File) (K0 : Checker.St),
    Joint penv (some .varisat) false s o (h ++ [(.solve, [0])]) ∧ NoSolve h ∧ NoAsm h ∧ Accepting penv.chk ∧
    Out.close penv o = some (o', .unit) ∧ o'.files.getLast? = some file ∧ execs penv.chk ((added h).map .add) {} = .ok () K0 ∧
    ∃ err K, checkProof penv.chk (fun _ => 0) (file.written.flatMap writeStep) K0 = .error err K := by
  let ops : List Op := [.newVar, .hideVar 0, cl [1, 2], cl [1, -2], cl [-1, 2], cl [-1, -2]]
  let h : Hist := (ops.map Op.call).zip [[0], [], [], [], [], []]
  obtain ⟨s, o, rs, h1, h2⟩ := see_joint (f := some .varisat) (check := false)
    (g := fun _ o rs => (rs, C52.verdict (added h) o)) (ops := ops ++ [.solve 20])
    (x := ([[0], [], [], [], [], [], [0]], some none)) (by decide +kernel)
  simp only [Prod.mk.injEq] at h2
  obtain ⟨rfl, h3⟩ := h2
  have hn : NoSolve h ∧ NoAsm h := by
    constructor
    · intro x hx
      simp [h, ops, cl, Op.call] at hx
      rcases hx with rfl | rfl | rfl | rfl | rfl | rfl <;> exact fun h => by cases h
    · intro x hx ls hl
      simp [h, ops, cl, Op.call] at hx
      rcases hx with rfl | rfl | rfl | rfl | rfl | rfl <;> cases hl
  unfold C52.verdict at h3
  split at h3
  · rename_i o' hc
    split at h3
    · rename_i file K0 hf hk
      split at h3
      · cases h3
      · rename_i err K he
        exact ⟨s, o, o', h, file, K0, h1, hn.1, hn.2, penv_accepting, hc, hf, hk, err, K, he⟩
    · cases h3
  · cases h3

end Varisat.Solver
