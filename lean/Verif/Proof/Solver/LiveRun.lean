import Verif.Proof.LiveLrat
import Verif.Proof.Solver.WrittenInner
/-! A checker that follows the solver: the calls it gets, and the clauses of the user among them. -/
namespace Varisat.Checker
open Solver (viewOf viewOf_snoc)

/-- Only units that contradict each other make the checker know that the clauses are unsatisfiable. -/
theorem clash_view (P : List (List Lit)) : ((viewOf P).unsat = true → Clashing P) ∧
    ∀ v b, (viewOf P).unit v = some b → ∃ c ∈ P, ∀ m ∈ c, m = Lit.mk' v b := by
  induction P using List.reverseRecOn with
  | nil => exact ⟨(fun h => by cases h), fun v b h => by cases h⟩
  | append_singleton P c ih =>
    obtain ⟨i1, i2⟩ := ih
    have keep1 : (viewOf P).unsat = true → Clashing (P ++ [c]) := fun h => (i1 h).mono fun c hc => by simp [hc]
    have keep2 : ∀ v b, (viewOf P).unit v = some b → ∃ d ∈ P ++ [c], ∀ m ∈ d, m = Lit.mk' v b := fun v b h => by
      obtain ⟨d, h1, h2⟩ := i2 v b h
      exact ⟨d, by simp [h1], h2⟩
    rw [viewOf_snoc]
    simp only [View.step]
    split
    · exact ⟨keep1, keep2⟩
    · unfold View.store
      match hk : (copyCanonical c).1 with
      | [] =>
        have hc := canonical_nil hk
        subst hc
        exact ⟨fun _ => ⟨⟨0⟩, ⟨[], by simp, by simp⟩, [], by simp, by simp⟩, keep2⟩
      | [l] =>
        have hl := canonical_one hk
        simp only
        split
        · rename_i b hb
          split
          · exact ⟨keep1, keep2⟩
          · rename_i hne
            refine ⟨fun _ => ?_, keep2⟩
            obtain ⟨d, h1, h2⟩ := i2 _ _ hb
            have hb : b = l.isNeg := by revert hne; cases b <;> cases l.isNeg <;> simp
            refine ⟨l, ⟨c, by simp, hl⟩, d, by simp [h1], fun m hm => ?_⟩
            rw [h2 m hm, hb, ← Lit.mk'_var_neg l.neg, Lit.var_neg, Lit.isNeg_neg, Bool.not_not]
        · refine ⟨keep1, fun v b h => ?_⟩
          simp only [upd] at h
          split at h
          · rename_i hv
            simp only [Option.some.injEq] at h
            subst hv
            refine ⟨c, by simp, fun m hm => ?_⟩
            rw [hl m hm, ← h, Lit.mk'_var_neg]
          · exact keep2 v b h
      | l :: l' :: k => exact ⟨keep1, keep2⟩

end Varisat.Checker

namespace Varisat.Solver
open Checker (addsOf liveOp Clashing execs)
open Api (Hist added Plain)

variable {α : Type} [LinearOrder α] {env : Out.Env} {f : Option Out.Format} {check : Bool}

theorem Exec.unsat_view {s : St α} {h : Hist} (x : Exec s h) (hns : NoSolve h) (hp : Plain h) (hlen : s.vars.gfs.len < 2 ^ 32)
    (hu : s.sat = .unsat) : (viewOf (added h)).unsat = true := by
  obtain ⟨-, i2, i3, -⟩ := x.tells hns hp hlen
  have hfine : Fine s.log := by
    rintro core hs L1 L2 hL _
    rcases i2 (.failedAssumptions core hs) (by rw [hL]; simp) with q | ⟨_, q⟩
    · exact q
    · cases q
  obtain ⟨_, _, _, _, ht⟩ := x.tracked (by omega)
  obtain ⟨V, k1, k2⟩ := ht.view
  have k1 := k1.full hfine
  have hun := k2.unsat.2 hu
  obtain ⟨k3, rfl⟩ := Checker.shown_iff.1 k1
  rw [← (k3.reorder i2).2, restOf_unsat i2] at hun
  rw [← i3]
  exact hun

/-- All clauses of the user are in the proof, in their order, unless the formula is already known to be unsatisfiable. -/
theorem Exec.clauses {s : St α} {h : Hist} (x : Exec s h) (hns : NoSolve h) (hp : Plain h) (hlen : s.vars.gfs.len < 2 ^ 32)
    (hc : ¬ Clashing (added h).dropLast) : List.Forall₂ (fun c d => copyCanonical c = copyCanonical d) (addsOf s.log) (added h) := by
  induction x with
  | new e => exact .nil
  | @call s s' h op r e x he hs ih =>
    obtain ⟨a, ids, hr, hi⟩ := x.inv
    obtain ⟨hl1, hl2⟩ := hi.step_grows hs
    have hns' : NoSolve h := fun y hy => hns y (by simp [hy])
    have hp' : Plain h := fun y hy => hp y (by simp [hy])
    have hl' : s.vars.gfs.len < 2 ^ 32 := by omega
    obtain ⟨i1, -⟩ := x.tells hns' hp' hl'
    have fin : Tells [] s s' → (∀ c, op.call ≠ .addClause c) → List.Forall₂ (fun c d => copyCanonical c = copyCanonical d)
        (addsOf s'.log) (added (h ++ [(op.call, r)])) := by
      intro k hop
      have ha : added (h ++ [(op.call, r)]) = added h := by
        rw [added_snoc]
        cases hq : op.call <;> first | exact absurd hq (hop _) | rw [List.append_nil]
      rw [ha] at hc ⊢
      rw [k.adds, List.append_nil]
      exact ih hns' hp' hl' hc
    rcases hi.step he op with ⟨q, _⟩ | ⟨q, _⟩ | ⟨_, _, _, _, q, _, _, hleg⟩
    · rw [q] at hs; cases hs
    · rw [q] at hs; cases hs
    clear q
    cases op with
    | addClause c =>
      obtain ⟨t, h1, h2⟩ := bind_inv (show (s.loadClause e c >>= fun q => pure (q, [])) = .ok (s', r) from hs)
      cases h2
      have ha : added (h ++ [((Op.addClause c).call, [])]) = added h ++ [c] := by rw [added_snoc]; rfl
      rw [ha] at hc ⊢
      rw [List.dropLast_concat] at hc
      rcases St.loadClause_tells he hi i1 hleg h1 with ⟨hu, k⟩ | ⟨c', k, hcc⟩
      · exact absurd ((Checker.clash_view _).1 (x.unsat_view hns' hp' hl' hu)) hc
      · rw [k.adds]
        refine List.rel_append (ih hns' hp' hl' fun q => hc (q.mono fun c hm => List.dropLast_subset _ hm)) (.cons hcc .nil)
    | newVar =>
      obtain ⟨⟨t, u⟩, h1, h2⟩ := bind_inv (show (({ s with formulaEmpty := false } : St α).newUserVar e >>= fun q => pure (q.1, [q.2])) = .ok (s', r) from hs)
      cases h2
      unfold St.newUserVar at h1
      obtain ⟨⟨t2, g⟩, h2, h1⟩ := bind_inv h1
      cases h1
      exact fin ((St.globalFromUser_tells h2).from (s := s) rfl rfl) (by simp [Op.call])
    | assume ls =>
      obtain ⟨t, h1, h2⟩ := bind_inv (show (s.assume e ls >>= fun q => pure (q, [])) = .ok (s', r) from hs)
      cases h2
      exact fin (St.assume_tells h1) (by simp [Op.call])
    | solve n => exact absurd rfl (hns (.solve, r) (by simp [Op.call]))
    | witnessVar u =>
      obtain ⟨t, h1, h2⟩ := bind_inv (show (s.setUserMode e u .witness >>= fun q => pure (q, [])) = .ok (s', r) from hs)
      cases h2
      exact fin (St.setUserMode_tells i1 h1 (by simp)) (by simp [Op.call])
    | sampleVar u =>
      obtain ⟨t, h1, h2⟩ := bind_inv (show (s.setUserMode e u .sample >>= fun q => pure (q, [])) = .ok (s', r) from hs)
      cases h2
      exact fin (St.setUserMode_tells i1 h1 (by simp)) (by simp [Op.call])
    | hideVar u => exact absurd rfl ((hp (.hideVar u, r) (by simp [Op.call])).1 u)
    | observe => exact absurd rfl (hp (.observe, r) (by simp [Op.call])).2

end Varisat.Solver

namespace Varisat.Out
open Checker (liveOp execs)

variable {env : Env}

/-- After an error nothing is checked any more. -/
def Quit (o : Sess) : Prop := o.error.isSome → o.proof.checker = none

/-- How the checker is told of a step. -/
def opOf (inv : Bool) (st : ProofStep) : Checker.Op := if inv then .step st else liveOp st

theorem tell_ok {o o' : Sess} {m : Checker.CM Unit} (h : tell o m = some o') (hq : Quit o) : Quit o' ∧ o'.invoked = o.invoked ∧
    ∀ c', o'.proof.checker = some c' → ∃ c, o.proof.checker = some c ∧ m c = .ok () c' := by
  unfold tell at h
  cases hc : o.proof.checker with
  | none =>
    rw [hc] at h
    cases h
    exact ⟨hq, rfl, fun c' k => by rw [hc] at k; cases k⟩
  | some c =>
    rw [hc] at h
    simp only at h
    cases hm : m c with
    | ok u c1 =>
      rw [hm] at h
      cases h
      exact ⟨fun k => (by have := hq k; rw [hc] at this; cases this), rfl, fun c' k => by cases k; exact ⟨c, rfl, hm⟩⟩
    | error e c1 =>
      rw [hm] at h
      cases e <;> cases h
      exact ⟨fun _ => rfl, rfl, fun c' k => by cases k⟩

theorem put_same (o : Sess) (st : ProofStep) : (put env o st).1.proof.checker = o.proof.checker ∧ (put env o st).1.error = o.error ∧
    (put env o st).1.invoked = o.invoked := by
  unfold put
  split <;> exact ⟨rfl, rfl, rfl⟩

theorem putStep_same (o : Sess) (st out : ProofStep) : (putStep env o st out).1.proof.checker = o.proof.checker ∧
    (putStep env o st out).1.error = o.error ∧ (putStep env o st out).1.invoked = o.invoked := by
  obtain ⟨h1, h2, h3⟩ := put_same (env := env) o out
  unfold putStep
  simp only
  split <;> exact ⟨h1, h2, h3⟩

theorem writeOut_same {o o' : Sess} {st : ProofStep} {ok : Bool} (h : writeOut env o st = some (o', ok)) :
    o'.proof.checker = o.proof.checker ∧ o'.error = o.error ∧ o'.invoked = o.invoked := by
  have fst : ∀ {x : Sess × Bool}, some x = some (o', ok) → x.1 = o' := fun e => by cases e; rfl
  unfold writeOut at h
  split at h
  · unfold writeVarisat at h
    simp only at h
    split at h
    · obtain ⟨a1, a2, a3⟩ := put_same (env := env)
        { o with proof := { o.proof with count := o.proof.count + delta st, hashBits := nextBits o.invoked (o.proof.count + delta st) o.proof.hashBits } }
        (.changeHashBits (nextBits o.invoked (o.proof.count + delta st) o.proof.hashBits))
      split at h
      · rw [← fst h]; exact ⟨a1, a2, a3⟩
      · split at h
        · cases h
        · rw [← fst h]
          obtain ⟨b1, b2, b3⟩ := putStep_same (env := env) (put env
            { o with proof := { o.proof with count := o.proof.count + delta st, hashBits := nextBits o.invoked (o.proof.count + delta st) o.proof.hashBits } }
            (.changeHashBits (nextBits o.invoked (o.proof.count + delta st) o.proof.hashBits))).1 st
            (mapHashes (· >>> (64 - nextBits o.invoked (o.proof.count + delta st) o.proof.hashBits)) st)
          exact ⟨b1.trans a1, b2.trans a2, b3.trans a3⟩
    · split at h
      · cases h; exact ⟨rfl, rfl, rfl⟩
      · split at h
        · cases h
        · rw [← fst h]; exact putStep_same _ _ _
  · split at h
    · rw [← fst h]; exact putStep_same _ _ _
    · cases h
  · cases h; exact ⟨rfl, rfl, rfl⟩

theorem addStep_ok {o o' : Sess} {st : ProofStep} (h : addStep env o st = some o') (hq : Quit o) : Quit o' ∧ o'.invoked = o.invoked ∧
    ∀ c', o'.proof.checker = some c' → ∃ c, o.proof.checker = some c ∧ (Checker.Op.step st).exec env.chk c = .ok () c' := by
  unfold addStep at h
  by_cases he : o.error.isSome
  · rw [if_pos he] at h
    cases h
    exact ⟨hq, rfl, fun c' k => by rw [hq he] at k; cases k⟩
  · rw [if_neg he] at h
    cases hw : writeOut env o st with
    | none => rw [hw] at h; cases h
    | some x =>
      obtain ⟨o1, ok⟩ := x
      obtain ⟨w1, w2, w3⟩ := writeOut_same hw
      rw [hw] at h
      cases ok with
      | false =>
        cases h
        exact ⟨fun _ => rfl, w3, fun c' k => by cases k⟩
      | true =>
        obtain ⟨t1, t2, t3⟩ := tell_ok h (fun k => by rw [w1]; exact hq (w2 ▸ k))
        exact ⟨t1, t2.trans w3, fun c' k => by
          obtain ⟨c, q1, q2⟩ := t3 c' k
          exact ⟨c, w1 ▸ q1, q2⟩⟩

theorem toEv_ok {o o' : Sess} {st : ProofStep} (h : (Solver.toEv st).exec env o = some o') (hq : Quit o) : Quit o' ∧ o'.invoked = o.invoked ∧
    ∀ c', o'.proof.checker = some c' → ∃ c, o.proof.checker = some c ∧ (opOf o.invoked st).exec env.chk c = .ok () c' := by
  by_cases hst : ∃ c, st = .addClause c
  · obtain ⟨c, rfl⟩ := hst
    have h : addClause env o c = some o' := h
    unfold addClause at h
    unfold opOf
    cases hi : o.invoked with
    | true =>
      rw [if_pos hi] at h
      have := addStep_ok h hq
      rwa [hi] at this
    | false =>
      rw [if_neg (by simp [hi])] at h
      cases ht : tell o (Checker.addClause env.chk c) with
      | none => rw [ht] at h; cases h
      | some o1 =>
        obtain ⟨t1, t2, t3⟩ := tell_ok ht hq
        rw [ht] at h
        simp only [Option.some.injEq] at h
        subst h
        split <;> exact ⟨t1, t2.trans hi, t3⟩
  · have e1 : Solver.toEv st = .step st := by cases st <;> first | rfl | exact absurd ⟨_, rfl⟩ hst
    have e2 : opOf o.invoked st = .step st := by
      unfold opOf
      cases o.invoked <;> cases st <;> first | rfl | exact absurd ⟨_, rfl⟩ hst
    rw [e1] at h
    rw [e2]
    exact addStep_ok h hq

theorem feed_ok : ∀ {L : List ProofStep} {o o' : Sess}, Solver.feed env L o = some o' → Quit o → Quit o' ∧ o'.invoked = o.invoked ∧
    ∀ c', o'.proof.checker = some c' → ∃ c, o.proof.checker = some c ∧ execs env.chk (L.map (opOf o.invoked)) c = .ok () c'
  | [], o, o', h, hq => by
    cases h
    exact ⟨hq, rfl, fun c' k => ⟨c', k, rfl⟩⟩
  | st :: L, o, o', h, hq => by
    have h : (match (Solver.toEv st).exec env o with | none => none | some s => runEvs env (L.map Solver.toEv) s) = some o' := h
    cases hx : (Solver.toEv st).exec env o with
    | none => rw [hx] at h; cases h
    | some o1 =>
      rw [hx] at h
      obtain ⟨a1, a2, a3⟩ := toEv_ok hx hq
      obtain ⟨b1, b2, b3⟩ := feed_ok (L := L) (o := o1) h a1
      refine ⟨b1, b2.trans a2, fun c' k => ?_⟩
      obtain ⟨c1, k1, k2⟩ := b3 c' k
      obtain ⟨c, k3, k4⟩ := a3 c1 k1
      refine ⟨c, k3, ?_⟩
      rw [a2] at k2
      show EStateM.bind _ _ c = _
      unfold EStateM.bind
      rw [k4]
      exact k2

theorem solveFinished_ok {o o' : Sess} (h : solveFinished env o = some o') (hq : Quit o) : Quit o' ∧
    ∀ c', o'.proof.checker = some c' → ∃ c, o.proof.checker = some c ∧ Checker.processUnitConflicts env.chk c = .ok () c' := by
  unfold solveFinished at h
  have hf : Quit (flush env o) ∧ ∀ c, (flush env o).proof.checker = some c → o.proof.checker = some c := by
    unfold flush handleIo
    split
    · split
      · exact ⟨hq, fun c k => k⟩
      · exact ⟨fun _ => rfl, fun c k => by cases k⟩
    · exact ⟨hq, fun c k => k⟩
  obtain ⟨t1, -, t3⟩ := tell_ok h hf.1
  refine ⟨t1, fun c' k => ?_⟩
  obtain ⟨c, k1, k2⟩ := t3 c' k
  exact ⟨c, hf.2 c k1, k2⟩

end Varisat.Out

namespace Varisat.Solver
open Checker (addsOf liveOp Clashing execs)
open Api (Hist added Plain)
open Out (Quit)

variable {α : Type} [LinearOrder α] {env : Out.Env} {f : Option Out.Format} {check : Bool}

/-- Before the first `solve` the checker has got all steps. -/
theorem Joint.heard {s : St α} {o : Out.Sess} {h : Hist} (x : Joint env f check s o h) (hns : NoSolve h) : Quit o ∧ o.invoked = false ∧
    ∀ c, o.proof.checker = some c → execs env.chk (s.log.map liveOp) {} = .ok () c := by
  induction x with
  | new e =>
    refine ⟨fun k => (by cases k), rfl, fun c hc => ?_⟩
    have hc : (if check then some ({} : Checker.St) else none) = some c := hc
    cases check with
    | false => cases hc
    | true => cases hc; rfl
  | @call s s' o o' h op r e x he hs ih =>
    obtain ⟨i1, i2, i3⟩ := ih fun y hy => hns y (by simp [hy])
    have hstep := St.step_of_joint hs
    obtain ⟨a, ids, hr, hi⟩ := x.exec.inv
    obtain ⟨L, hL⟩ := (hi.step_grows hstep).2
    have hop : ∀ n, op ≠ .solve n := fun n hn => hns (op.call, r) (by simp) (Op.call_solve.2 ⟨n, hn⟩)
    have hfeed : feed env L o = some o' := by
      unfold St.joint at hs
      rw [hstep] at hs
      have hd : s'.log.drop s.log.length = L := by rw [← hL]; simp
      cases op <;> first
        | exact absurd rfl (hop _)
        | (simp only [hd] at hs
           cases hx : feed env L o with
           | none => rw [hx] at hs; cases hs
           | some o1 => rw [hx] at hs; cases hs; rfl)
    obtain ⟨f1, f2, f3⟩ := Out.feed_ok hfeed i1
    refine ⟨f1, f2.trans i2, fun c' hc' => ?_⟩
    obtain ⟨c, k1, k2⟩ := f3 c' hc'
    rw [i2] at k2
    rw [← hL, List.map_append]
    exact Checker.execs_append.2 ⟨c, i3 c k1, k2⟩

/-- What the checker has got after the first `solve`. -/
theorem Joint.solved {s : St α} {o : Out.Sess} {h : Hist} {r : Nat} (x : Joint env f check s o (h ++ [(.solve, [r])])) (hns : NoSolve h)
    (hp : Plain h) (hlen : s.vars.gfs.len < 2 ^ 32) {c2 : Checker.St} (hc2 : o.proof.checker = some c2) :
    ∃ (s1 : St α) (Q : List ProofStep) (c0 c1 : Checker.St), Exec s1 h ∧ s1.vars.gfs.len < 2 ^ 32 ∧ s.log = s1.log ++ Q ∧ (∀ st ∈ Q, Inner st) ∧
      execs env.chk (s1.log.map liveOp) {} = .ok () c0 ∧ execs env.chk (Q.map .step) c0 = .ok () c1 ∧
      Checker.processUnitConflicts env.chk c1 = .ok () c2 := by
  generalize hH : h ++ [((.solve : Api.Call), [r])] = H at x
  cases x with
  | new e => simp at hH
  | @call s1 _ o1 _ h1 op r1 e x he hs =>
    obtain ⟨rfl, e2⟩ := List.append_inj' hH rfl
    simp only [List.cons.injEq, and_true, Prod.mk.injEq] at e2
    obtain ⟨e2, rfl⟩ := e2
    obtain ⟨n, rfl⟩ := Op.call_solve.1 e2.symm
    have hstep := St.step_of_joint hs
    obtain ⟨a, ids, hr, hi⟩ := x.exec.inv
    obtain ⟨hl1, L, hL⟩ := hi.step_grows hstep
    have hlen1 : s1.vars.gfs.len < 2 ^ 32 := by omega
    obtain ⟨i1, i2, i3⟩ := x.heard hns
    have hd : s.log.drop s1.log.length = L := by rw [← hL]; simp
    unfold St.joint at hs
    rw [hstep] at hs
    simp only [hd] at hs
    split at hs
    · cases hs
    cases hx : feed env L { o1 with invoked := true } with
    | none => rw [hx] at hs; cases hs
    | some o2 =>
      rw [hx] at hs
      simp only at hs
      cases hy : Out.solveFinished env o2 with
      | none => rw [hy] at hs; cases hs
      | some o3 =>
        rw [hy] at hs
        simp only [Except.ok.injEq, Prod.mk.injEq] at hs
        obtain ⟨-, hs1, -, hs2⟩ := hs
        have e3 : o3 = o := by
          unfold Out.takeError at hs1 hs2
          split at hs2
          · cases hs2
          · rename_i hz
            rw [hz] at hs1
            exact hs1
        subst e3
        obtain ⟨f1, f2, f3⟩ := Out.feed_ok hx i1
        obtain ⟨-, g2⟩ := Out.solveFinished_ok hy f1
        obtain ⟨c1, k1, k2⟩ := g2 c2 hc2
        obtain ⟨c0, k3, k4⟩ := f3 c1 k1
        have hQ : ∀ st ∈ L, Inner st := by
          obtain ⟨b, hs', -⟩ := solve_step hstep
          obtain ⟨L', k1, k2⟩ := (St.solve_keeps hs').log (x.exec.allUser hns hp hlen1)
          rw [← hL] at k1
          rw [List.append_cancel_left k1]
          exact k2
        exact ⟨s1, L, c0, c1, x.exec, hlen1, hL.symm, hQ, i3 c0 k3, k4, k2⟩

end Varisat.Solver
