import Verif.Model.CliFile
import Verif.Proof.CheckerHeard
/-! What the processor was told by the checker of a session: the processor has accepted it. -/
namespace Varisat.Out

variable {env : Env}

/-- The checker of the session, if there still is one, got no error from the processor. -/
def Heard (env : Env) (o : Sess) : Prop := ∀ c, o.proof.checker = some c → Checker.Heard.Heard env.chk c

theorem Heard.congr {o o' : Sess} (h : Heard env o) (h1 : o'.proof.checker = o.proof.checker) : Heard env o' := by
  unfold Heard; rw [h1]; exact h

theorem Heard.drop (o : Sess) : Heard env o.drop := fun c hc => by cases hc

theorem put_checker (s : Sess) (st : ProofStep) : (put env s st).1.proof.checker = s.proof.checker := by
  unfold put
  split <;> rfl

theorem putStep_checker (s : Sess) (st out : ProofStep) : (putStep env s st out).1.proof.checker = s.proof.checker := by
  have := put_checker (env := env) s out
  unfold putStep
  generalize put env s out = z at *
  obtain ⟨a, b⟩ := z
  simp only at this ⊢
  split <;> exact this

theorem writeOut_checker {o o' : Sess} {st : ProofStep} {ok : Bool} (hw : writeOut env o st = some (o', ok)) : o'.proof.checker = o.proof.checker := by
  unfold Out.writeOut at hw
  split at hw
  · unfold writeVarisat at hw
    simp only at hw
    generalize hs1 : ({ o with proof := { o.proof with count := o.proof.count + delta st, hashBits := nextBits o.invoked (o.proof.count + delta st) o.proof.hashBits } } : Sess) = s1 at hw
    have h1 : s1.proof.checker = o.proof.checker := by rw [← hs1]
    split at hw
    · have hp := put_checker (env := env) s1 (.changeHashBits (nextBits o.invoked (o.proof.count + delta st) o.proof.hashBits))
      generalize put env s1 (.changeHashBits (nextBits o.invoked (o.proof.count + delta st) o.proof.hashBits)) = z at *
      obtain ⟨s2, b⟩ := z
      simp only at hw hp
      split at hw
      · cases hw; exact hp.trans h1
      · split at hw
        · cases hw
        · have hw := congrArg Prod.fst (Option.some.inj hw)
          rw [← show _ = o' from hw, putStep_checker, hp, h1]
    · simp only [Bool.not_true, Bool.false_eq_true, if_false] at hw
      split at hw
      · cases hw
      · have hw := congrArg Prod.fst (Option.some.inj hw)
        rw [← show _ = o' from hw, putStep_checker, h1]
  · split at hw
    · have hw := congrArg Prod.fst (Option.some.inj hw)
      rw [← show _ = o' from hw, putStep_checker]
    · cases hw
  · cases hw; rfl

theorem Heard.tell {o o' : Sess} {m : Checker.CM Unit} (hm : Checker.Heard.Pres env.chk m) (h : Heard env o) (hw : tell o m = some o') : Heard env o' := by
  unfold Out.tell at hw
  split at hw
  · rename_i c hc
    cases hx : m c with
    | ok u K =>
      rw [hx] at hw; cases hw
      intro d hd
      cases hd
      exact Checker.Heard.of hm hx (h c hc)
    | error x K =>
      rw [hx] at hw
      cases x <;> cases hw
      exact (Heard.drop o).congr rfl
  · cases hw; exact h

theorem Heard.addStep {o o' : Sess} {st : ProofStep} (h : Heard env o) (hw : addStep env o st = some o') : Heard env o' := by
  unfold Out.addStep at hw
  split at hw
  · cases hw; exact h
  · split at hw
    · cases hw
    · rename_i s hs
      cases hw
      exact (Heard.drop s).congr rfl
    · rename_i s hs
      exact (h.congr (writeOut_checker hs)).tell (Checker.Heard.pres_self st) hw

theorem Heard.addClause {o o' : Sess} {c : List Lit} (h : Heard env o) (hw : addClause env o c = some o') : Heard env o' := by
  unfold Out.addClause at hw
  split at hw
  · exact h.addStep hw
  · split at hw
    · cases hw
    · rename_i s hs
      cases hw
      split
      · exact (h.tell (Checker.Heard.pres_addClause c) hs).congr rfl
      · exact h.tell (Checker.Heard.pres_addClause c) hs

theorem Heard.flush {o : Sess} (h : Heard env o) : Heard env (flush env o) := by
  unfold Out.flush handleIo
  split
  · split
    · exact h.congr rfl
    · exact (Heard.drop { o with ios := o.ios + 1 }).congr rfl
  · exact h

theorem Heard.runEvs : ∀ {L : List Ev} {o o' : Sess}, Heard env o → runEvs env L o = some o' → Heard env o'
  | [], o, o', h, hw => by cases hw; exact h
  | ev :: L, o, o', h, hw => by
    unfold Out.runEvs at hw
    split at hw
    · cases hw
    · rename_i s hs
      refine Heard.runEvs ?_ hw
      cases ev with
      | step st => exact h.addStep hs
      | clause c => exact h.addClause hs
      | sat v => cases hs; exact h.congr rfl
      | nonEmpty => cases hs; exact h.congr rfl

theorem Heard.takeError {o : Sess} (h : Heard env o) : Heard env (takeError o).1 := by
  unfold Out.takeError
  split
  · exact h.congr rfl
  · exact h

end Varisat.Out

namespace Varisat.Solver

variable {α : Type} [LinearOrder α] {e : Env α} {env : Out.Env} {f : Option Out.Format} {check : Bool}

theorem setup_heard : Out.Heard env (setup f check) := by
  intro c hc
  unfold setup at hc
  cases check
  · cases hc
  · cases hc; exact fun _ => .inl rfl

theorem joint_heard {s s' : St α} {o o' : Out.Sess} {op : Op} {r : List Nat} {er : Option Out.SErr} (h : Out.Heard env o)
    (hj : s.joint e env op o = .ok (s', o', r, er)) : Out.Heard env o' := by
  unfold St.joint at hj
  split at hj
  · cases hj
  · split at hj
    · split at hj
      · cases hj
      · split at hj
        · cases hj
        · rename_i t ht
          split at hj
          · cases hj
          · rename_i u hu
            cases hj
            have h1 : Out.Heard env t := Out.Heard.runEvs (h.congr (o' := { o with invoked := true }) rfl) ht
            unfold Out.solveFinished at hu
            exact (h1.flush.tell Checker.Heard.pres_conflicts hu).takeError
    · split at hj
      · cases hj
      · rename_i t ht
        cases hj
        exact Out.Heard.runEvs h ht

end Varisat.Solver

namespace Varisat.Cli
open Solver

variable {α : Type} [LinearOrder α] {e : Solver.Env α} {penv : Out.Env}

theorem load_heard : ∀ (cs : List (List Lit)) {q q' : St α × Out.Sess}, Out.Heard penv q.2 → loadJoint e penv cs q = .ok q' → Out.Heard penv q'.2 := by
  intro cs
  induction cs with
  | nil => intro q q' h hk; cases hk; exact h
  | cons c cs ih =>
    intro q q' h hk
    unfold loadJoint at hk
    rw [List.foldlM_cons] at hk
    cases hj : q.1.joint e penv (.addClause c) q.2 with
    | error z => rw [hj] at hk; cases hk
    | ok z =>
      obtain ⟨t, u, v, w⟩ := z
      rw [hj] at hk
      exact ih (q := (t, u)) (joint_heard h hj) hk

end Varisat.Cli
