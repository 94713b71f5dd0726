import Mathlib.Data.List.Induction
import Verif.Props.C30_Minimisation
import Verif.Proof.Solver.Hints
import Verif.Proof.Solver.SimExec
import Verif.Proof.Joint
/-!
# C41 The propagation hints of a learned clause justify it
-/
namespace Varisat.Solver
variable {α : Type} [LinearOrder α]

/-- The hashes of a learned clause are, in order, the hashes of clauses in the database which form a unit
propagation refutation of the negated clause together with the literals assigned without a decision.
(At most `Var::max_count()` variables.) -/
theorem C41.hints {s : St α} {c : Conflict} (h : Search s (.conflict c)) (hmax : s.varCount ≤ maxVarCount)
    (e : Env α) {L : Learned α}
    (he : analyze e s.p s.db.lits s.vflags s.vsids (s.varCount + 1) c = .ok L) :
    ∃ hs, L.hashes = hs.map clauseHash ∧ (∀ d ∈ hs, InDb s d) ∧
      UnitChain Lit.neg (fun l => l.neg ∈ L.clause ∨ Fixed s l) hs := by
  obtain ⟨F, A, ids, h1, h2, _⟩ := h.inv
  have hp := h1.core.c.tr
  have hl := hp.length_le (fun l hl => h1.lt _ (h1.core.c.pres l hl))
  rw [maxVarCount_eq] at hmax
  obtain ⟨hs, r⟩ := analyze_hints h1.core.c h2 h1.fl h1.q.wf (by omega) he
  refine ⟨hs, r.eq, fun d hd => ?_, ?_⟩
  · rcases r.inDb d hd with ⟨l, m, k1, rfl⟩ | ⟨k, k1, rfl⟩
    · exact .bin l m k1
    · exact .long k k1.1 k1.2
  · refine UnitChain.mono r.chain (fun x hx => ?_)
    rcases hx with hx | hx
    · exact Or.inl hx
    · exact Or.inr ((fixed_iff hp).2 hx)

open Checker (Accepting execs selfCheckStep) in
/-- A checker that was given the steps of the proof before it (failed cores, which are not used later, left out) accepts
the clause with these hashes. -/
theorem C41.accepted {env : Checker.Env} (ha : Accepting env) {s : St α} {h : Api.Hist} (x : Exec s h)
    (hlen : s.vars.gfs.len < 2 ^ 32) {L1 L2 : List ProofStep} {red : Bool} {c : List Lit} {hs : List Nat}
    (hlog : s.log = L1 ++ .atClause red c hs :: L2) :
    ∃ K K', execs env ((L1.filter noFail).map .step) {} = .ok () K ∧ selfCheckStep env (.atClause red c hs) K = .ok () K' := by
  obtain ⟨_, _, _, _, ht⟩ := x.tracked hlen
  obtain ⟨V, hV, _⟩ := ht.view
  have h1 := (Checker.shown_iff.1 hV.quiet).1
  have hfl : s.log.filter noFail = (L1.filter noFail ++ [.atClause red c hs]) ++ L2.filter noFail := by
    rw [hlog, List.filter_append, List.append_assoc]; rfl
  rw [hfl] at h1
  have h2 := Checker.shown_iff.2 ⟨h1.left.1, rfl⟩
  have hr : ∀ L : List ProofStep, Checker.Rendered L 64 (L.map .step) := by
    intro L
    induction L using List.reverseRecOn with
    | nil => exact .nil
    | append_singleton L st ih =>
      have := ih.step st
      rw [Out.mapHashes_full] at this
      rw [List.map_append]; exact this
  obtain ⟨-, K', e1, -, -⟩ := h2.accepted ha (fun _ => rfl) (hr _)
  rw [List.map_append] at e1
  obtain ⟨K, e2, e3⟩ := Checker.execs_append.1 e1
  obtain ⟨K'', e4, -⟩ := Checker.execs_ok e3
  exact ⟨K, K'', e2, e4⟩

/-- A concrete case: a run that learns a clause from two others, after a failed core. -/
example : ∃ (s : St Nat) (h : Api.Hist) (L1 L2 : List ProofStep) (red : Bool) (c : List Lit) (hs : List Nat), Exec s h ∧
    s.vars.gfs.len < 2 ^ 32 ∧ s.log = L1 ++ .atClause red c hs :: L2 ∧ hs.length = 2 ∧ ∃ core gs, .failedAssumptions core gs ∈ L1 := by
  obtain ⟨s, rs, h1, h2⟩ := Sample.see_exec (f := fun s rs => (decide (s.vars.gfs.len < 2 ^ 32),
      match s.log.span (fun st => match st with | .atClause _ _ _ => false | _ => true) with
      | (L1, .atClause _ _ hs :: _) => decide (hs.length = 2) && L1.any (fun st => match st with | .failedAssumptions _ _ => true | _ => false)
      | _ => false))
    (ops := [Sample.cl [1, 2], Sample.cl [1, -2], Sample.cl [-3, 1, 4], Sample.cl [-3, 1, -4], Sample.cl [5, 6], Sample.asm [5, -5],
      .solve 20, Sample.asm [], .solve 20])
    (x := (true, true)) (by decide +kernel)
  simp only [Prod.mk.injEq, decide_eq_true_eq] at h2
  obtain ⟨h3, h4⟩ := h2
  split at h4
  · rename_i L1 red c hs L2 hsp
    rw [List.span_eq_takeWhile_dropWhile] at hsp
    simp only [Prod.mk.injEq] at hsp
    simp only [Bool.and_eq_true, decide_eq_true_eq, List.any_eq_true] at h4
    obtain ⟨h5, st, h6, h7⟩ := h4
    refine ⟨s, _, L1, L2, red, c, hs, h1, h3, ?_, h5, ?_⟩
    · rw [← hsp.1, ← hsp.2, List.takeWhile_append_dropWhile]
    · cases st <;> first | exact ⟨_, _, h6⟩ | cases h7
  · cases h4

/-- The conflict of `C30`, whose clause loses a literal in minimisation. -/
example : ∃ (s : St Nat) (c : Conflict) (L : Learned Nat), Search s (.conflict c) ∧ s.varCount ≤ maxVarCount ∧
    analyze Sample.env s.p s.db.lits s.vflags s.vsids (s.varCount + 1) c = .ok L ∧ L.clause.length = 2 := by
  obtain ⟨s, ph, h1, h2⟩ := Sample.peek_search
    (f := fun s ph => match ph with
      | .conflict c =>
        match An.trailLoop Sample.env s.p s.db.lits s.p.trail.reverse (walkStart Sample.env s.p s.db.lits s.vflags s.vsids c) with
        | some a => some (decide (0 < s.p.curLevel), decide (s.varCount ≤ maxVarCount),
            (An.minimize s.p s.db.lits (s.varCount + 1) a).map (fun b => b.clause.length))
        | none => none
      | _ => none)
    (ops := [Sample.cl [2, 3], Sample.cl [2, -3, -4, 5], Sample.cl [2, -3, -4, -5], Sample.asm [-2, 4]])
    (ms := [.propagate, .simplify, .assumption, .propagate, .simplify, .assumption, .propagate])
    (x := some (true, true, some 2)) (by decide +kernel)
  cases ph with
  | conflict c =>
    simp only at h2
    split at h2
    · rename_i a ha
      simp only [Option.some.injEq, Prod.mk.injEq, decide_eq_true_eq] at h2
      obtain ⟨k1, k2, k3⟩ := h2
      obtain ⟨a', b, L, k4, k5⟩ := C30.minimise h1 k1 Sample.env
      have : a' = a := by have := k4.walk; rw [ha] at this; exact (Option.some.inj this).symm
      subst this
      rw [k4.min] at k3
      exact ⟨s, c, L, h1, k2, k4.res, by rw [k5.2.2.2.2.2.1.length_eq]; exact Option.some.inj k3⟩
    · cases h2
  | _ => cases h2

end Varisat.Solver
