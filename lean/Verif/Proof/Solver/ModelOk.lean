import Verif.Spec.Answers
import Mathlib.Data.List.Induction
import Verif.Proof.Solver.Exec
import Verif.Proof.Solver.Plain
import Verif.Proof.Solver.Reach
/-!
# When a model is stored, and for which variables
-/
namespace Varisat.Solver

open Api (Hist)

variable {α : Type} [LinearOrder α]

namespace St

/-- The answer and the stored model stay the same. -/
def Md (s s' : St α) : Prop := s'.sat = s.sat ∧ s'.model = s.model

theorem Md.trans {a b c : St α} (h : Md a b) (k : Md b c) : Md a c := ⟨k.1.trans h.1, k.2.trans h.2⟩

theorem emit_md {s s' : St α} {x : ProofStep} (h : s.emit x = .ok s') : Md s s' := by
  unfold emit at h
  split at h
  · cases h; exact ⟨rfl, rfl⟩
  · cases h

theorem updSolverData_md {s s' : St α} {v : Nat} {f : VarData → VarData} (h : s.updSolverData v f = .ok s') :
    Md s s' := by
  unfold updSolverData at h
  repeat' split at h
  all_goals first | (cases h; done) | (cases h; exact ⟨rfl, rfl⟩)

theorem globalFromUser1_md {e : Env α} {s s' : St α} {u g : Nat} {b : Bool} (h : s.globalFromUser1 e u b = .ok (s', g)) :
    Md s s' := by
  unfold globalFromUser1 at h
  repeat' split at h
  all_goals first | (cases h; done) | (cases h; exact ⟨rfl, rfl⟩)

theorem fillUsers_md {e : Env α} : ∀ {n i : Nat} {s s' : St α}, fillUsers e n i s = .ok s' → Md s s'
  | 0, _, _, _, h => by cases h; exact ⟨rfl, rfl⟩
  | n + 1, i, s, s', h => by
    rw [fillUsers] at h
    obtain ⟨⟨t, g⟩, h1, h⟩ := bind_inv h
    exact Md.trans (globalFromUser1_md h1) (fillUsers_md h)

theorem globalFromUser_md {e : Env α} {s s' : St α} {u g : Nat} {b : Bool} (h : s.globalFromUser e u b = .ok (s', g)) :
    Md s s' := by
  unfold globalFromUser at h
  obtain ⟨t, h1, h⟩ := bind_inv h
  exact Md.trans (fillUsers_md h1) (globalFromUser1_md h)

theorem initSolverVar_md {e : Env α} {s s' : St α} {v g : Nat} (h : s.initSolverVar e v g = .ok s') : Md s s' := by
  unfold initSolverVar at h
  split at h
  · cases h
  · simp only at h
    split at h
    · cases h
    · cases h; exact ⟨rfl, rfl⟩

theorem solverFromGlobal_md {e : Env α} {s s' : St α} {g v : Nat} (h : s.solverFromGlobal e g = .ok (s', v)) :
    Md s s' := by
  unfold solverFromGlobal at h
  split at h
  · cases h; exact ⟨rfl, rfl⟩
  · obtain ⟨t, h1, h⟩ := bind_inv h
    cases h
    have k := initSolverVar_md h1
    exact k

theorem solverFromUserLits_md {e : Env α} {b : Bool} : ∀ {ls : List Lit} {s s' : St α} {r : List Lit},
    solverFromUserLits e b ls s = .ok (s', r) → Md s s'
  | [], _, _, _, h => by cases h; exact ⟨rfl, rfl⟩
  | l :: ls, s, s', r, h => by
    rw [solverFromUserLits] at h
    obtain ⟨⟨t, v⟩, h1, h⟩ := bind_inv h
    obtain ⟨⟨t2, r2⟩, h2, h⟩ := bind_inv h
    cases h
    unfold solverFromUser at h1
    obtain ⟨⟨t3, g⟩, h3, h1⟩ := bind_inv h1
    exact Md.trans (Md.trans (globalFromUser_md h3) (solverFromGlobal_md h1)) (solverFromUserLits_md h2)

theorem deleteGlobal_md {s s' : St α} {g : Nat} (h : s.deleteGlobal g = .ok s') : Md s s' := by
  unfold deleteGlobal at h
  repeat' split at h
  all_goals first | (cases h; done) | (cases h; exact ⟨rfl, rfl⟩)

theorem setMode_md {e : Env α} {s s' : St α} {g : Nat} {m : Mode} {o : Option Nat} (h : s.setMode e g m = .ok (s', o)) :
    Md s s' := by
  unfold setMode at h
  split at h
  · cases h
  rename_i d _
  split at h
  · cases h
  split at h
  · cases h
  split at h
  · cases h; exact ⟨rfl, rfl⟩
  have he : Md s (if m ≠ .hide then
        St.emitG { s with vars := { s.vars with data := s.vars.data.set g { d with mode := m } } } (.changeSamplingMode g (m == .sample))
      else { s with vars := { s.vars with data := s.vars.data.set g { d with mode := m } } }) := by
    split <;> exact ⟨rfl, rfl⟩
  simp only at h
  generalize (if m ≠ .hide then
        St.emitG { s with vars := { s.vars with data := s.vars.data.set g { d with mode := m } } } (.changeSamplingMode g (m == .sample))
      else { s with vars := { s.vars with data := s.vars.data.set g { d with mode := m } } }) = u at h he
  split at h
  · cases h
    exact Md.trans he ⟨rfl, rfl⟩
  split at h
  · obtain ⟨t, h1, h⟩ := bind_inv h
    cases h
    refine Md.trans (Md.trans he ?_) (deleteGlobal_md h1)
    exact ⟨rfl, rfl⟩
  · cases h
    exact he

theorem observeLoop_md {e : Env α} : ∀ {gs : List Nat} {s s' : St α} {r : List Nat}, observeLoop e gs s = .ok (s', r) →
    Md s s'
  | [], _, _, _, h => by cases h; exact ⟨rfl, rfl⟩
  | g :: gs, s, s', r, h => by
    rw [observeLoop] at h
    split at h
    · cases h
    · split at h
      · obtain ⟨⟨t, o⟩, h1, h⟩ := bind_inv h
        obtain ⟨⟨t2, r2⟩, h2, h⟩ := bind_inv h
        have k := Md.trans (setMode_md h1) (observeLoop_md h2)
        simp only at h
        split at h
        · cases h; exact k
        · cases h
      · exact observeLoop_md h

theorem setAssumed_md {b : Bool} : ∀ {ls : List Lit} {s s' : St α}, setAssumed b ls s = .ok s' → Md s s'
  | [], _, _, h => by cases h; exact ⟨rfl, rfl⟩
  | l :: ls, s, s', h => by
    rw [setAssumed] at h
    obtain ⟨t, h1, h⟩ := bind_inv h
    exact Md.trans (updSolverData_md h1) (setAssumed_md h)

theorem clearIsolated_md : ∀ {ls : List Lit} {s s' : St α}, clearIsolated ls s = .ok s' → Md s s'
  | [], _, _, h => by cases h; exact ⟨rfl, rfl⟩
  | l :: ls, s, s', h => by
    rw [clearIsolated] at h
    obtain ⟨t, h1, h⟩ := bind_inv h
    exact Md.trans (updSolverData_md h1) (clearIsolated_md h)

theorem storeClause_sat {e : Env α} {s s' : St α} {b : Bool} {ls : List Lit} (h : s.storeClause e b ls = .ok s')
    (hs : s.sat ≠ .sat) : s'.sat ≠ .sat := by
  unfold storeClause at h
  repeat' split at h
  all_goals first | (cases h; done) | (cases h; exact hs) | (cases h; simp)

theorem loadLits_sat {e : Env α} {s s' : St α} {ls : List Lit} (h : s.loadLits e ls = .ok s') (hs : s.sat ≠ .sat) : s'.sat ≠ .sat := by
  unfold loadLits at h
  obtain ⟨t, h1, h⟩ := bind_inv h
  have k1 := emit_md h1
  split at h
  · cases h; rw [k1.1]; exact hs
  have key : ∀ {u : St α}, Md s u → (let r := scanLits u.p (dedupLits (sortLits ls))
      let s := { u with p := r.2.1.foldl (fun (p : Pt) (l : Lit) => p.resurrect l.neg) u.p }
      let lits := r.1 ++ r.2.1
      if r.2.2 then
        if lits.length > 1 then s.emit (.deleteClause lits .satisfied) else pure s
      else s.storeClause e r.1.isEmpty lits) = .ok s' → s'.sat ≠ .sat := by
    intro u hu h
    have hu' : u.sat ≠ .sat := by rw [hu.1]; exact hs
    simp only at h
    split at h
    · split at h
      · have k := emit_md h
        rw [k.1]; exact hu'
      · cases h; exact hu'
    · exact storeClause_sat h hu'
  split at h
  · obtain ⟨u, h2, h⟩ := bind_inv h
    exact key (Md.trans k1 (clearIsolated_md h2)) h
  · exact key k1 h

theorem addClause_sat {e : Env α} {s s' : St α} {c : List Lit} {r : List Nat} (h : s.step e (.addClause c) = .ok (s', r)) :
    s'.sat ≠ .sat := by
  obtain ⟨t, h1, h⟩ := bind_inv (show (s.loadClause e c >>= fun t => pure (t, [])) = .ok (s', r) from h)
  cases h
  unfold loadClause at h1
  split at h1
  · rename_i hs; cases h1; rw [hs]; simp
  · obtain ⟨⟨t2, ls⟩, h2, h1⟩ := bind_inv h1
    have k1 := solverFromUserLits_md h2
    refine loadLits_sat h1 ?_
    rw [k1.1]
    show (if s.sat = .sat then SatState.unknown else s.sat) ≠ .sat
    split
    · simp
    · assumption

theorem assume_sat {e : Env α} {s s' : St α} {ls : List Lit} {r : List Nat} (h : s.step e (.assume ls) = .ok (s', r)) :
    s'.sat ≠ .sat := by
  obtain ⟨t, h1, h⟩ := bind_inv (show (s.assume e ls >>= fun t => pure (t, [])) = .ok (s', r) from h)
  cases h
  unfold assume at h1
  obtain ⟨t2, h2, h1⟩ := bind_inv h1
  obtain ⟨⟨t3, q⟩, h3, h1⟩ := bind_inv h1
  obtain ⟨t4, h4, h1⟩ := bind_inv h1
  have k2 := setAssumed_md h2
  have k3 := solverFromUserLits_md h3
  have k4 := setAssumed_md h4
  have k5 := emit_md h1
  have k := Md.trans k2 (Md.trans k3 (Md.trans (b := { t3 with asm := _ }) ⟨rfl, rfl⟩ (Md.trans k4 k5)))
  rw [k.1]
  show (if s.fullRestart.sat = .unsat then SatState.unsat else .unknown) ≠ .sat
  split <;> simp

theorem quiet_md {e : Env α} {s s' : St α} {op : Op} {r : List Nat} (hop : op.call.Quiet) (h : s.step e op = .ok (s', r)) :
    Md s s' := by
  cases op with
  | addClause c => cases hop
  | newVar =>
    obtain ⟨t, h1, h⟩ := bind_inv (show ({ s with formulaEmpty := false }.newUserVar e >>= fun r => pure (r.1, [r.2])) = .ok (s', r) from h)
    cases h
    unfold newUserVar at h1
    obtain ⟨⟨t2, g⟩, h2, h1⟩ := bind_inv h1
    cases h1
    have k := globalFromUser_md h2
    exact k
  | assume ls => cases hop
  | solve n => cases hop
  | witnessVar u =>
    obtain ⟨t, h1, h⟩ := bind_inv (show (s.setUserMode e u .witness >>= fun t => pure (t, [])) = .ok (s', r) from h)
    cases h
    unfold setUserMode at h1
    obtain ⟨⟨t2, g⟩, h2, h1⟩ := bind_inv h1
    obtain ⟨⟨t3, o⟩, h3, h1⟩ := bind_inv h1
    cases h1
    exact Md.trans (globalFromUser_md h2) (setMode_md h3)
  | sampleVar u =>
    obtain ⟨t, h1, h⟩ := bind_inv (show (s.setUserMode e u .sample >>= fun t => pure (t, [])) = .ok (s', r) from h)
    cases h
    unfold setUserMode at h1
    obtain ⟨⟨t2, g⟩, h2, h1⟩ := bind_inv h1
    obtain ⟨⟨t3, o⟩, h3, h1⟩ := bind_inv h1
    cases h1
    exact Md.trans (globalFromUser_md h2) (setMode_md h3)
  | hideVar u =>
    obtain ⟨t, h1, h⟩ := bind_inv (show (s.setUserMode e u .hide >>= fun t => pure (t, [])) = .ok (s', r) from h)
    cases h
    unfold setUserMode at h1
    obtain ⟨⟨t2, g⟩, h2, h1⟩ := bind_inv h1
    obtain ⟨⟨t3, o⟩, h3, h1⟩ := bind_inv h1
    cases h1
    exact Md.trans (globalFromUser_md h2) (setMode_md h3)
  | observe =>
    have h : s.observeInternal e = .ok (s', r) := h
    unfold observeInternal at h
    exact observeLoop_md h

/-! ### Variables in use -/

/-- No deleted or new global variable comes into use. -/
def Lv (s s' : St α) : Prop := ∀ g, s'.vars.Live g → s.vars.Live g

theorem live_set {d d' : VarData} {x : List VarData} {g k : Nat} (hd : x[g]? = some d) (hx : d'.deleted = false → d.deleted = false)
    (h : ∃ c, (x.set g d')[k]? = some c ∧ c.deleted = false) : ∃ c, x[k]? = some c ∧ c.deleted = false := by
  obtain ⟨c, h1, h2⟩ := h
  rw [List.getElem?_set] at h1
  split at h1
  · rename_i hk
    subst hk
    split at h1
    · cases h1; exact ⟨d, hd, hx h2⟩
    · cases h1
  · exact ⟨c, h1, h2⟩

theorem deleteGlobal_lv {s s' : St α} {g : Nat} (h : s.deleteGlobal g = .ok s') : Lv s s' := by
  unfold deleteGlobal at h
  split at h
  · cases h; exact fun _ h => h
  split at h
  · cases h; exact fun _ h => h
  split at h
  · cases h
  rename_i d hd
  split at h
  · cases h
  split at h
  · cases h; exact fun _ h => h
  · cases h
    exact fun k hk => live_set hd (by simp) hk

theorem setMode_lv {e : Env α} {s s' : St α} {g : Nat} {m : Mode} {o : Option Nat} (h : s.setMode e g m = .ok (s', o)) :
    Lv s s' := by
  unfold setMode at h
  split at h
  · cases h
  rename_i d hd
  split at h
  · cases h
  split at h
  · cases h
  split at h
  · cases h; exact fun _ h => h
  have he : Lv s (if m ≠ .hide then
        St.emitG { s with vars := { s.vars with data := s.vars.data.set g { d with mode := m } } } (.changeSamplingMode g (m == .sample))
      else { s with vars := { s.vars with data := s.vars.data.set g { d with mode := m } } }) := by
    split <;> exact fun k hk => live_set hd (d' := { d with mode := m }) id hk
  simp only at h
  generalize (if m ≠ .hide then
        St.emitG { s with vars := { s.vars with data := s.vars.data.set g { d with mode := m } } } (.changeSamplingMode g (m == .sample))
      else { s with vars := { s.vars with data := s.vars.data.set g { d with mode := m } } }) = u at h he
  split at h
  · cases h
    exact he
  split at h
  · obtain ⟨t, h1, h⟩ := bind_inv h
    cases h
    refine fun k hk => he k ?_
    obtain ⟨c, h2, h3⟩ := deleteGlobal_lv h1 k hk
    refine ⟨c, ?_, h3⟩
    rw [← h2]
    dsimp only [emitG]
    split <;> rfl
  · cases h
    exact he

theorem observeLoop_lv {e : Env α} : ∀ {gs : List Nat} {s s' : St α} {r : List Nat}, observeLoop e gs s = .ok (s', r) → Lv s s'
  | [], _, _, _, h => by cases h; exact fun _ h => h
  | g :: gs, s, s', r, h => by
    rw [observeLoop] at h
    split at h
    · cases h
    · split at h
      · obtain ⟨⟨t, o⟩, h1, h⟩ := bind_inv h
        obtain ⟨⟨t2, r2⟩, h2, h⟩ := bind_inv h
        have k : Lv s t2 := fun g hg => setMode_lv h1 g (observeLoop_lv h2 g hg)
        simp only at h
        split at h
        · cases h; exact k
        · cases h
      · exact observeLoop_lv h

theorem setUserMode_lv {e : Env α} {s s' : St α} {u : Nat} {m : Mode} (hv : VInv s.vars) (hu : s.vars.gfu.map u ≠ none)
    (h : s.setUserMode e u m = .ok s') : Lv s s' := by
  unfold setUserMode at h
  obtain ⟨⟨t2, g⟩, h2, h⟩ := bind_inv h
  obtain ⟨⟨t3, o⟩, h3, h⟩ := bind_inv h
  cases h
  obtain ⟨g', hg⟩ := Option.ne_none_iff_exists'.1 hu
  have : t2 = s := by
    unfold globalFromUser at h2
    have hlt := hv.ulen _ _ hg
    rw [Nat.sub_eq_zero_of_le (Nat.le_of_lt hlt)] at h2
    have h2 : s.globalFromUser1 e u false = .ok (t2, g) := h2
    unfold globalFromUser1 at h2
    rw [hg] at h2
    simp only [Bool.false_eq_true, false_and, if_false] at h2
    cases h2; rfl
  subst this
  exact setMode_lv h3

end St

open Api (found Creates)

theorem found_snoc (h : Hist) (y : Api.Call × List Nat) : found (h ++ [y]) = (match y.1 with
    | .solve => y.2 == [1]
    | .addClause _ | .assume _ => false
    | _ => found h) := by
  simp [found]
  cases y.1 <;> rfl

theorem solve_step {e : Env α} {s s' : St α} {n : Nat} {r : List Nat} (h : s.step e (.solve n) = .ok (s', r)) :
    ∃ b : Bool, s.solve e n = .ok (s', b) ∧ r = [if b then 1 else 0] := by
  obtain ⟨⟨t, b⟩, h1, h2⟩ := bind_inv (show (s.solve e n >>= fun q => pure (q.1, [if q.2 then 1 else 0])) = .ok (s', r) from h)
  have h2 : (Except.ok (t, [if b then 1 else 0]) : Except Stop (St α × List Nat)) = .ok (s', r) := h2
  simp only [Except.ok.injEq, Prod.mk.injEq] at h2
  obtain ⟨rfl, rfl⟩ := h2
  exact ⟨b, h1, rfl⟩

theorem Exec.found_iff {s : St α} {h : Hist} (x : Exec s h) : s.sat = .sat ↔ found h = true := by
  induction x with
  | new e => simp [found, St.new]
  | @call s s' h op r e x he hs ih =>
    rw [found_snoc]
    cases op with
    | addClause c =>
      have := St.addClause_sat hs
      simp [Op.call, this]
    | assume c =>
      have := St.assume_sat hs
      simp [Op.call, this]
    | solve n =>
      obtain ⟨b, h1, rfl⟩ := solve_step hs
      obtain ⟨a, ids, _, hi⟩ := x.inv
      rcases hi.solve e n with k | ⟨s1, b', k1, _, _, k4, _⟩
      · rw [k] at h1; cases h1
      · rw [k1] at h1
        simp only [Except.ok.injEq, Prod.mk.injEq] at h1
        obtain ⟨rfl, rfl⟩ := h1
        rw [← k4]
        cases b' <;> simp [Op.call]
    | newVar => rw [(St.quiet_md (op := .newVar) trivial hs).1]; exact ih
    | witnessVar u => rw [(St.quiet_md (op := (.witnessVar u)) trivial hs).1]; exact ih
    | sampleVar u => rw [(St.quiet_md (op := (.sampleVar u)) trivial hs).1]; exact ih
    | hideVar u => rw [(St.quiet_md (op := (.hideVar u)) trivial hs).1]; exact ih
    | observe => rw [(St.quiet_md (op := .observe) trivial hs).1]; exact ih

/-- A model is stored and has a value for every variable in use. -/
def St.Full (s : St α) : Prop := s.sat = .sat ∧ ∀ g, s.vars.Live g → g < s.model.length

theorem St.Full.model {s : St α} (h : s.Full) (hv : VInv s.vars) : ∃ m, s.modelLits = some (some m) := by
  refine St.modelLits_ok h.1 (fun u g hg => ?_)
  obtain ⟨d, q1, q2, _⟩ := hv.ulive u g hg
  exact h.2 g ⟨d, q1, q2⟩

theorem Exec.full_new {s s' : St α} {h : Hist} (x : Exec s h) (hf : found h = false) {e : Env α} {n : Nat}
    (hs : s.step e (.solve n) = .ok (s', [1])) : s'.Full := by
  obtain ⟨b, h1, hb⟩ := solve_step hs
  obtain ⟨a, ids, _, hi⟩ := x.inv
  have hb : b = true := by cases b <;> simp at hb ⊢
  subst hb
  rcases hi.solve e n with k | ⟨s1, b', k1, k2, _, k4, k5⟩
  · rw [k] at h1; cases h1
  rw [k1] at h1
  simp only [Except.ok.injEq, Prod.mk.injEq] at h1
  obtain ⟨rfl, rfl⟩ := h1
  refine ⟨k4.1 rfl, fun g hg => ?_⟩
  cases hu : s.sat with
  | unknown =>
    obtain ⟨v, hv⟩ := k5 hu rfl g hg
    exact (List.getElem?_eq_some_iff.1 hv).1
  | sat => rw [x.found_iff.1 hu] at hf; cases hf
  | unsat =>
    obtain ⟨τ, q1, _⟩ := (k2.b.sat (k4.1 rfl)).val
    exact absurd q1 ((hi.unsat hu).1 τ)
  | unsatUnder =>
    obtain ⟨τ, q1, q2, _⟩ := (k2.b.sat (k4.1 rfl)).val
    exact absurd q2 (hi.under hu τ q1)

theorem Exec.full_step {s s' : St α} {h : Hist} (x : Exec s h) (hf : s.Full) {e : Env α} {op : Op} {r : List Nat}
    (hs : s.step e op = .ok (s', r)) (h1 : ∀ c, op.call ≠ .addClause c) (h2 : ∀ c, op.call ≠ .assume c) (hc : ¬ Creates h op.call) :
    s'.Full := by
  obtain ⟨a, ids, hr, hi⟩ := x.inv
  have modes : ∀ {u : Nat} {m : Mode}, (∀ a, Api.Abs.Run {} h a → a.name u ≠ none) →
      (s.setUserMode e u m >>= fun t => pure (t, [])) = .ok (s', r) → St.Md s s' → s'.Full := by
    intro u m hu hs k
    obtain ⟨t, q1, q2⟩ := bind_inv hs
    have q2 : (Except.ok (t, []) : Except Stop (St α × List Nat)) = .ok (s', r) := q2
    simp only [Except.ok.injEq, Prod.mk.injEq] at q2
    obtain ⟨rfl, rfl⟩ := q2
    refine ⟨k.1.trans hf.1, fun g hg => ?_⟩
    rw [k.2]
    refine hf.2 g (St.setUserMode_lv hi.b.v (fun hn => ?_) q1 g hg)
    have := hu a hr
    rw [hi.n.name, hn] at this
    exact this rfl
  cases op with
  | addClause c => exact absurd rfl (h1 c)
  | assume c => exact absurd rfl (h2 c)
  | newVar => exact absurd trivial hc
  | solve n =>
    obtain ⟨b, q1, rfl⟩ := solve_step hs
    have hk : ({ s with invoked := true } : St α).sat ≠ .unknown := by
      show s.sat ≠ .unknown; rw [hf.1]; simp
    unfold St.solve at q1
    rcases St.solveLoop_known e hk n with k | k
    · rw [k] at q1; cases q1
    · rw [k, ok_bind] at q1
      have : s' = { s with invoked := true } := by cases q1; rfl
      subst this
      exact hf
  | witnessVar u => exact modes (not_not.1 hc) hs (St.quiet_md (op := (.witnessVar u)) trivial hs)
  | sampleVar u => exact modes (not_not.1 hc) hs (St.quiet_md (op := (.sampleVar u)) trivial hs)
  | hideVar u => exact modes (not_not.1 hc) hs (St.quiet_md (op := (.hideVar u)) trivial hs)
  | observe =>
    have k := St.quiet_md (op := .observe) trivial hs
    have q : s.observeInternal e = .ok (s', r) := hs
    unfold St.observeInternal at q
    refine ⟨k.1.trans hf.1, fun g hg => ?_⟩
    rw [k.2]
    exact hf.2 g (St.observeLoop_lv q g hg)

theorem Exec.last {s : St α} {h : Hist} {y : Api.Call × List Nat} (x : Exec s (h ++ [y])) :
    ∃ (t : St α) (e : Env α) (op : Op), Exec t h ∧ e.Ok ∧ op.call = y.1 ∧ t.step e op = .ok (s, y.2) := by
  generalize hh : h ++ [y] = H at x
  cases x with
  | new e => simp at hh
  | @call s1 s h1 op r1 e x he hs =>
    obtain ⟨rfl, hh'⟩ := List.append_inj' hh rfl
    obtain rfl := List.head_eq_of_cons_eq hh'
    exact ⟨s1, e, op, x, he, rfl, hs⟩

theorem Exec.full {h1 h2 : Hist} : ∀ {s : St α}, Exec s (h1 ++ (.solve, [1]) :: h2) → found h1 = false →
    (∀ y ∈ h2, (∀ c, y.1 ≠ .addClause c) ∧ ∀ c, y.1 ≠ .assume c) →
    (∀ p y q, h2 = p ++ y :: q → ¬ Creates (h1 ++ (.solve, [1]) :: p) y.1) → s.Full := by
  induction h2 using List.reverseRecOn with
  | nil =>
    intro s x hf _ _
    obtain ⟨t, e, op, x', he, ho, hs⟩ := x.last
    cases op <;> cases ho
    exact x'.full_new hf hs
  | append_singleton h2 y ih =>
    intro s x hf hq hc
    rw [show h1 ++ (.solve, [1]) :: (h2 ++ [y]) = (h1 ++ (.solve, [1]) :: h2) ++ [y] by simp] at x
    obtain ⟨t, e, op, x', he, ho, hs⟩ := x.last
    have k := ih x' hf (fun z hz => hq z (by simp [hz])) (fun p z q hp => hc p z (q ++ [y]) (by rw [hp]; simp))
    have hy := hq y (by simp)
    refine x'.full_step k hs (by rw [ho]; exact hy.1) (by rw [ho]; exact hy.2) ?_
    rw [ho]
    exact hc h2 y [] rfl

/-! ### Failed cores -/

theorem St.storeClause_unsat {e : Env α} {s s' : St α} {b : Bool} {ls : List Lit} (h : s.storeClause e b ls = .ok s') :
    s'.sat = s.sat ∨ s'.sat = .unsat := by
  unfold St.storeClause at h
  repeat' split at h
  all_goals first | (cases h; done) | (cases h; exact .inl rfl) | (cases h; exact .inr rfl)

theorem St.loadLits_unsat {e : Env α} {s s' : St α} {ls : List Lit} (h : s.loadLits e ls = .ok s') :
    s'.sat = s.sat ∨ s'.sat = .unsat := by
  unfold St.loadLits at h
  obtain ⟨t, h1, h⟩ := bind_inv h
  have k1 := St.emit_md h1
  split at h
  · cases h; exact .inl k1.1
  have key : ∀ {u : St α}, St.Md s u → (let r := scanLits u.p (dedupLits (sortLits ls))
      let s := { u with p := r.2.1.foldl (fun (p : Pt) (l : Lit) => p.resurrect l.neg) u.p }
      let lits := r.1 ++ r.2.1
      if r.2.2 then
        if lits.length > 1 then s.emit (.deleteClause lits .satisfied) else pure s
      else s.storeClause e r.1.isEmpty lits) = .ok s' → s'.sat = s.sat ∨ s'.sat = .unsat := by
    intro u hu h
    simp only at h
    split at h
    · split at h
      · have k := St.emit_md h
        exact .inl (k.1.trans hu.1)
      · cases h; exact .inl hu.1
    · rcases St.storeClause_unsat h with k | k
      · exact .inl (k.trans hu.1)
      · exact .inr k
  split at h
  · obtain ⟨u, h2, h⟩ := bind_inv h
    exact key (St.Md.trans k1 (St.clearIsolated_md h2)) h
  · exact key k1 h

/-- The formula, or the formula with the assumptions, is known to be unsatisfiable. -/
def St.Refuted (s : St α) : Prop := s.sat = .unsat ∨ s.sat = .unsatUnder

theorem St.Refuted.core {s : St α} (h : s.Refuted) : ∃ c, s.failedCore = some c := by
  unfold St.failedCore
  rcases h with h | h <;> rw [h] <;> exact ⟨_, rfl⟩

theorem St.Refuted.of {s : St α} {c : List Lit} (h : s.failedCore = some c) : s.Refuted := by
  unfold St.failedCore at h
  cases hs : s.sat <;> rw [hs] at h <;> first | (cases h; done) | exact .inl rfl | exact .inr rfl | simp [Refuted, hs]

theorem Exec.refuted_step {s s' : St α} {h : Hist} (x : Exec s h) (hf : s.Refuted) {e : Env α} {op : Op} {r : List Nat}
    (hs : s.step e op = .ok (s', r)) (h2 : ∀ c, op.call ≠ .assume c) : s'.Refuted := by
  have quiet : St.Md s s' → s'.Refuted := by
    intro k
    unfold St.Refuted
    rw [k.1]; exact hf
  cases op with
  | addClause c =>
    obtain ⟨t, h1, h⟩ := bind_inv (show (s.loadClause e c >>= fun t => pure (t, [])) = .ok (s', r) from hs)
    cases h
    unfold St.loadClause at h1
    split at h1
    · cases h1; exact hf
    · obtain ⟨⟨t2, ls⟩, h2, h1⟩ := bind_inv h1
      have k1 := St.solverFromUserLits_md h2
      have k2 : t2.Refuted := by
        unfold St.Refuted
        rw [k1.1]
        show (if s.sat = .sat then SatState.unknown else s.sat) = .unsat ∨ (if s.sat = .sat then SatState.unknown else s.sat) = .unsatUnder
        rcases hf with k | k <;> simp [k]
      rcases St.loadLits_unsat h1 with k | k
      · unfold St.Refuted; rw [k]; exact k2
      · exact .inl k
  | assume c => exact absurd rfl (h2 c)
  | solve n =>
    obtain ⟨b, q1, rfl⟩ := solve_step hs
    have hk : ({ s with invoked := true } : St α).sat ≠ .unknown := by
      show s.sat ≠ .unknown; rcases hf with k | k <;> rw [k] <;> simp
    unfold St.solve at q1
    rcases St.solveLoop_known e hk n with k | k
    · rw [k] at q1; cases q1
    · rw [k, ok_bind] at q1
      have : s' = { s with invoked := true } := by cases q1; rfl
      subst this
      exact hf
  | newVar => exact quiet (St.quiet_md (op := .newVar) trivial hs)
  | witnessVar u => exact quiet (St.quiet_md (op := .witnessVar u) trivial hs)
  | sampleVar u => exact quiet (St.quiet_md (op := .sampleVar u) trivial hs)
  | hideVar u => exact quiet (St.quiet_md (op := .hideVar u) trivial hs)
  | observe => exact quiet (St.quiet_md (op := .observe) trivial hs)

theorem Exec.refuted {h1 h2 : Hist} : ∀ {s : St α}, Exec s (h1 ++ (.solve, [0]) :: h2) → (∀ y ∈ h2, ∀ c, y.1 ≠ .assume c) → s.Refuted := by
  induction h2 using List.reverseRecOn with
  | nil =>
    intro s x _
    obtain ⟨t, e, op, x', he, ho, hs⟩ := x.last
    cases op <;> cases ho
    obtain ⟨b, q1, hb⟩ := solve_step hs
    obtain ⟨a, ids, _, hi⟩ := x'.inv
    rcases hi.solve e _ with k | ⟨s1, b', k1, _, k3, k4, _⟩
    · rw [k] at q1; cases q1
    · rw [k1] at q1
      simp only [Except.ok.injEq, Prod.mk.injEq] at q1
      obtain ⟨rfl, rfl⟩ := q1
      cases b' with
      | true => simp at hb
      | false =>
        cases hq : s1.sat with
        | unknown => exact absurd hq k3
        | sat => exact absurd (k4.2 hq) (by simp)
        | unsat => exact .inl hq
        | unsatUnder => exact .inr hq
  | append_singleton h2 y ih =>
    intro s x hq
    rw [show h1 ++ (.solve, [0]) :: (h2 ++ [y]) = (h1 ++ (.solve, [0]) :: h2) ++ [y] by simp] at x
    obtain ⟨t, e, op, x', he, ho, hs⟩ := x.last
    exact x'.refuted_step (ih x' (fun z hz => hq z (by simp [hz]))) hs (by rw [ho]; exact hq y (by simp))

theorem Exec.assume_core {s : St α} {h : Hist} {ls : List Lit} {r : List Nat} (x : Exec s (h ++ [(.assume ls, r)])) : s.sat ≠ .unsatUnder := by
  obtain ⟨t, e, op, x', he, ho, hs⟩ := x.last
  cases op <;> cases ho
  obtain ⟨t', h1, h⟩ := bind_inv (show (t.assume e ls >>= fun t => pure (t, [])) = .ok (s, r) from hs)
  cases h
  unfold St.assume at h1
  obtain ⟨t2, h2, h1⟩ := bind_inv h1
  obtain ⟨⟨t3, q⟩, h3, h1⟩ := bind_inv h1
  obtain ⟨t4, h4, h1⟩ := bind_inv h1
  have k2 := St.setAssumed_md h2
  have k3 := St.solverFromUserLits_md h3
  have k4 := St.setAssumed_md h4
  have k5 := St.emit_md h1
  have k := St.Md.trans k2 (St.Md.trans k3 (St.Md.trans (b := { t3 with asm := _ }) ⟨rfl, rfl⟩ (St.Md.trans k4 k5)))
  rw [k.1]
  show (if t.fullRestart.sat = .unsat then SatState.unsat else .unknown) ≠ .unsatUnder
  split <;> simp

end Varisat.Solver
