import Verif.Model.Joint
import Verif.Proof.Solver.Sample
import Verif.Proof.CheckerComplete
/-! Concrete runs with proof output and self checking, for the examples. -/
namespace Varisat.Solver.Sample

/-- Processors and transcripts that accept everything; no I/O fails. -/
def penv : Out.Env where
  io _ := true
  chk := {
    hasProc := true
    proc _ := true
    hasTranscript := true
    transcript _ := true
    iter := id
    iter_perm _ := List.Perm.refl _ }

theorem penv_accepting : Checker.Accepting penv.chk := ⟨fun _ _ => rfl, fun _ _ => rfl⟩

/-- Some calls on a solver with proof output; none of them may return an error. -/
def jointFrom (p : Out.Env) : List Op → St Nat → Out.Sess → Api.Hist → Except Stop (St Nat × Out.Sess × Api.Hist)
  | [], s, o, h => .ok (s, o, h)
  | op :: ops, s, o, h =>
    match s.joint env p op o with
    | .error e => .error e
    | .ok (s', o', r, none) => jointFrom p ops s' o' (h ++ [(op.call, r)])
    | .ok (_, _, _, some _) => .error .panic

theorem jointFrom_joint {p : Out.Env} {f : Option Out.Format} {check : Bool} : ∀ (ops : List Op) {s : St Nat} {o : Out.Sess} {h : Api.Hist} {s' : St Nat}
    {o' : Out.Sess} {h' : Api.Hist}, Joint p f check s o h → jointFrom p ops s o h = .ok (s', o', h') →
    Joint p f check s' o' h' ∧ h'.map (·.1) = h.map (·.1) ++ ops.map Op.call
  | [], _, _, _, _, _, _, x, k => by cases k; exact ⟨x, by simp⟩
  | op :: ops, s, o, h, s', o', h', x, k => by
    rw [jointFrom] at k
    split at k
    · cases k
    · rename_i s1 o1 r hs
      have := jointFrom_joint ops (.call env x env_ok hs) k
      exact ⟨this.1, by rw [this.2]; simp⟩
    · cases k

/-- Something read from the states and the results after some calls on a new solver. -/
def seeWith {β : Type} (p : Out.Env) (f : Option Out.Format) (check : Bool) (g : St Nat → Out.Sess → List (List Nat) → β) (ops : List Op) : Option β :=
  match jointFrom p ops (St.new env) (setup f check) [] with
  | .ok (s, o, h) => some (g s o (h.map (·.2)))
  | .error _ => none

theorem see_with {β : Type} {p : Out.Env} {f : Option Out.Format} {check : Bool} {g : St Nat → Out.Sess → List (List Nat) → β} {ops : List Op} {x : β}
    (k : seeWith p f check g ops = some x) :
    ∃ (s : St Nat) (o : Out.Sess) (rs : List (List Nat)), Joint p f check s o ((ops.map Op.call).zip rs) ∧ g s o rs = x := by
  unfold seeWith at k
  split at k
  · rename_i s o h hg
    obtain ⟨h1, h2⟩ := jointFrom_joint ops (.new env) hg
    refine ⟨s, o, h.map (·.2), ?_, Option.some.inj k⟩
    have : ops.map Op.call = h.map (·.1) := by rw [h2]; rfl
    rw [this, List.zip_map']
    simpa using h1
  · cases k

/-- The same when nothing fails. -/
def seeJoint {β : Type} (f : Option Out.Format) (check : Bool) (g : St Nat → Out.Sess → List (List Nat) → β) (ops : List Op) : Option β :=
  seeWith penv f check g ops

theorem see_joint {β : Type} {f : Option Out.Format} {check : Bool} {g : St Nat → Out.Sess → List (List Nat) → β} {ops : List Op} {x : β}
    (k : seeJoint f check g ops = some x) :
    ∃ (s : St Nat) (o : Out.Sess) (rs : List (List Nat)), Joint penv f check s o ((ops.map Op.call).zip rs) ∧ g s o rs = x := see_with k

/-- The processor fails when it has got more than `k` steps. -/
def rejecting (k : Nat) : Out.Env where
  io _ := true
  chk := {
    hasProc := true
    proc steps := decide (steps.length ≤ k)
    hasTranscript := false
    transcript _ := true
    iter := id
    iter_perm _ := List.Perm.refl _ }

end Varisat.Solver.Sample
