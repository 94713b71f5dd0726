import Verif.Proof.Solver.Grow
import Verif.Proof.CheckerReorder
/-!
# The proof steps of calls other than `solve`

They add clauses, name variables and delete clauses that are satisfied at once; nothing is derived. A
variable is only deleted by `hide_var`.
-/
namespace Varisat.Solver

variable {α : Type} [LinearOrder α]

/-- Does the step tell the assumptions? -/
def isAsm : ProofStep → Bool
  | .assumptions _ => true
  | _ => false

/-- A step of a call other than `solve`; `a` says whether a clause may be added, `d` whether a variable may be deleted. -/
def Readies (a d : Bool) (st : ProofStep) : Prop :=
  ((Checker.Prep st ∧ isAsm st = false) ∨ a = true ∧ ∃ c, st = .addClause c) ∨ d = true ∧ ∃ v, st = .deleteVar v

/-- The new steps. -/
def Says (a d : Bool) (s s' : St α) : Prop := ∃ L, s'.log = s.log ++ L ∧ ∀ st ∈ L, Readies a d st

variable {a d : Bool}

theorem Says.same {s s' : St α} (h : s'.log = s.log) : Says a d s s' := ⟨[], by simpa using h, fun _ h => by cases h⟩
theorem Says.refl (s : St α) : Says a d s s := .same rfl
theorem Says.trans {x y z : St α} (h : Says a d x y) (k : Says a d y z) : Says a d x z := by
  obtain ⟨L, h1, h2⟩ := h
  obtain ⟨M, k1, k2⟩ := k
  refine ⟨L ++ M, by rw [k1, h1, List.append_assoc], fun st hst => ?_⟩
  rcases List.mem_append.1 hst with q | q
  · exact h2 st q
  · exact k2 st q
theorem Says.mono {s s' : St α} (h : Says a false s s') : Says a d s s' := by
  obtain ⟨L, h1, h2⟩ := h
  refine ⟨L, h1, fun st hst => .inl ?_⟩
  rcases h2 st hst with q | ⟨q, _⟩
  · exact q
  · cases q
theorem Says.adding {s s' : St α} (h : Says false d s s') : Says a d s s' := by
  obtain ⟨L, h1, h2⟩ := h
  refine ⟨L, h1, fun st hst => ?_⟩
  rcases h2 st hst with (q | ⟨q, _⟩) | q
  · exact .inl (.inl q)
  · cases q
  · exact .inr q
theorem Says.one {s s' : St α} {st : ProofStep} (h : s'.log = s.log ++ [st]) (hr : Readies a d st) : Says a d s s' :=
  ⟨[st], h, fun x hx => by rw [List.mem_singleton.1 hx]; exact hr⟩

theorem mapM_length {β γ : Type} {f : β → Option γ} : ∀ {c : List β} {d : List γ}, c.mapM f = some d → d.length = c.length
  | [], d, h => by
    rw [List.mapM_nil] at h
    cases h; rfl
  | x :: c, d, h => by
    rw [List.mapM_cons] at h
    simp only [Option.bind_eq_bind, Option.bind_eq_some_iff, Option.pure_def] at h
    obtain ⟨y, -, e, h2, h3⟩ := h
    cases h3
    rw [List.length_cons, List.length_cons, mapM_length h2]

namespace St

theorem emit_says {s s' : St α} {x : ProofStep} (h : s.emit x = .ok s')
    (hx : (a = true ∧ ∃ c, x = .addClause c) ∨ ∃ c, x = .deleteClause c .satisfied) : Says a d s s' := by
  unfold emit at h
  split at h
  · rename_i y hy
    cases h
    refine Says.one rfl (.inl ?_)
    rcases hx with ⟨ha, c, rfl⟩ | ⟨c, rfl⟩ <;>
      (simp only [mapStep?, Option.map_eq_some_iff] at hy; obtain ⟨b, _, rfl⟩ := hy)
    · exact .inr ⟨ha, _, rfl⟩
    · exact .inl ⟨trivial, rfl⟩
  · cases h

theorem emitG_says (s : St α) {x : ProofStep} (h : Readies a d x) : Says a d s (s.emitG x) := Says.one rfl h

theorem updSolverData_says {s s' : St α} {v : Nat} {f : VarData → VarData} (h : s.updSolverData v f = .ok s') : Says a d s s' := by
  unfold updSolverData at h
  split at h
  · cases h
  · split at h
    · cases h; exact Says.same rfl
    · cases h

theorem globalFromUser1_says {e : Env α} {s s' : St α} {u g : Nat} {b : Bool} (h : s.globalFromUser1 e u b = .ok (s', g)) :
    Says a d s s' := by
  unfold globalFromUser1 at h
  split at h
  · split at h
    · cases h
    · cases h; exact Says.refl _
  · cases h
    exact Says.one rfl (.inl (.inl ⟨trivial, rfl⟩))

theorem fillUsers_says {e : Env α} : ∀ {n i : Nat} {s s' : St α}, fillUsers e n i s = .ok s' → Says a d s s'
  | 0, _, _, _, h => by cases h; exact Says.refl _
  | n + 1, i, s, s', h => by
    rw [fillUsers] at h
    obtain ⟨⟨t, g⟩, h1, h⟩ := bind_inv h
    exact (globalFromUser1_says h1).trans (fillUsers_says h)

theorem globalFromUser_says {e : Env α} {s s' : St α} {u g : Nat} {b : Bool} (h : s.globalFromUser e u b = .ok (s', g)) :
    Says a d s s' := by
  unfold globalFromUser at h
  obtain ⟨t, h1, h⟩ := bind_inv h
  exact (fillUsers_says h1).trans (globalFromUser1_says h)

theorem initSolverVar_says {e : Env α} {s s' : St α} {v g : Nat} (h : s.initSolverVar e v g = .ok s') : Says a d s s' := by
  unfold initSolverVar at h
  split at h
  · cases h
  · simp only at h
    split at h
    · cases h
    · cases h; exact Says.same rfl

theorem solverFromGlobal_says {e : Env α} {s s' : St α} {g v : Nat} (h : s.solverFromGlobal e g = .ok (s', v)) : Says a d s s' := by
  unfold solverFromGlobal at h
  split at h
  · cases h; exact Says.refl _
  · obtain ⟨t, h1, h⟩ := bind_inv h
    cases h
    refine Says.trans (Says.same rfl) ((initSolverVar_says h1).trans (Says.one rfl (.inl (.inl ⟨trivial, rfl⟩))))

theorem solverFromUser_says {e : Env α} {s s' : St α} {u v : Nat} {b : Bool} (h : s.solverFromUser e u b = .ok (s', v)) :
    Says a d s s' := by
  unfold solverFromUser at h
  obtain ⟨t, h1, h⟩ := bind_inv h
  exact (globalFromUser_says (s' := t.1) (g := t.2) h1).trans (solverFromGlobal_says h)

theorem solverFromUserLits_says {e : Env α} {b : Bool} : ∀ {ls : List Lit} {s s' : St α} {r : List Lit},
    solverFromUserLits e b ls s = .ok (s', r) → Says a d s s'
  | [], _, _, _, h => by cases h; exact Says.refl _
  | l :: ls, s, s', r, h => by
    rw [solverFromUserLits] at h
    obtain ⟨⟨t, v⟩, h1, h⟩ := bind_inv h
    obtain ⟨⟨t2, q⟩, h2, h⟩ := bind_inv h
    cases h
    exact (solverFromUser_says h1).trans (solverFromUserLits_says h2)

theorem deleteGlobal_says {s s' : St α} {g : Nat} (h : s.deleteGlobal g = .ok s') : Says a true s s' := by
  unfold deleteGlobal at h
  repeat' split at h
  all_goals first | (cases h; done) | (cases h; first | exact Says.refl _ | exact Says.one rfl (.inr ⟨rfl, _, rfl⟩))

theorem setMode_says {e : Env α} {s s' : St α} {g : Nat} {m : Mode} {r : Option Nat} (h : s.setMode e g m = .ok (s', r))
    (hm : m = .hide → d = true) : Says a d s s' := by
  unfold setMode at h
  split at h
  · cases h
  · rename_i dt hd
    have key : Says a d s (if m ≠ .hide then ({ s with vars := { s.vars with data := s.vars.data.set g { dt with mode := m } } } : St α).emitG
        (.changeSamplingMode g (m == .sample)) else { s with vars := { s.vars with data := s.vars.data.set g { dt with mode := m } } }) := by
      split
      · exact Says.one rfl (.inl (.inl ⟨trivial, rfl⟩))
      · exact Says.same rfl
    split at h
    · cases h
    split at h
    · cases h
    split at h
    · cases h; exact Says.refl _
    simp only at h
    split at h
    · cases h
      exact key.trans (Says.one rfl (.inl (.inl ⟨trivial, rfl⟩)))
    split at h
    · rename_i hh
      obtain rfl := hm hh
      obtain ⟨t, h1, h⟩ := bind_inv h
      cases h
      refine key.trans (Says.trans ?_ ((emitG_says _ ?_).trans (deleteGlobal_says h1)))
      · exact Says.same rfl
      · exact .inl (.inl ⟨trivial, rfl⟩)
    · cases h; exact Says.one rfl (.inl (.inl ⟨trivial, rfl⟩))

theorem observeLoop_says {e : Env α} : ∀ {gs : List Nat} {s s' : St α} {r : List Nat}, observeLoop e gs s = .ok (s', r) → Says a d s s'
  | [], _, _, _, h => by cases h; exact Says.refl _
  | g :: gs, s, s', r, h => by
    rw [observeLoop] at h
    split at h
    · cases h
    split at h
    · obtain ⟨⟨t, o⟩, h1, h⟩ := bind_inv h
      obtain ⟨⟨t2, q⟩, h2, h⟩ := bind_inv h
      simp only at h
      cases o with
      | none => cases h
      | some u =>
        cases h
        exact (setMode_says h1 (fun h => by cases h)).trans (observeLoop_says h2)
    · exact observeLoop_says h

theorem setUserMode_says {e : Env α} {s s' : St α} {u : Nat} {m : Mode} (h : s.setUserMode e u m = .ok s')
    (hm : m = .hide → d = true) : Says a d s s' := by
  unfold setUserMode at h
  obtain ⟨t, h1, h⟩ := bind_inv h
  obtain ⟨t2, h2, h⟩ := bind_inv h
  cases h
  exact (globalFromUser_says (s' := t.1) (g := t.2) h1).trans (setMode_says (s' := t2.1) (r := t2.2) h2 hm)

theorem setAssumed_says {b : Bool} : ∀ {ls : List Lit} {s s' : St α}, setAssumed b ls s = .ok s' → Says a d s s'
  | [], _, _, h => by cases h; exact Says.refl _
  | l :: ls, s, s', h => by
    rw [setAssumed] at h
    obtain ⟨t, h1, h⟩ := bind_inv h
    exact (updSolverData_says h1).trans (setAssumed_says h)

theorem clearIsolated_says : ∀ {ls : List Lit} {s s' : St α}, clearIsolated ls s = .ok s' → Says a d s s'
  | [], _, _, h => by cases h; exact Says.refl _
  | l :: ls, s, s', h => by
    rw [clearIsolated] at h
    obtain ⟨t, h1, h⟩ := bind_inv h
    exact (updSolverData_says h1).trans (clearIsolated_says h)

theorem solverFromUserLits_length {e : Env α} {b : Bool} : ∀ {ls : List Lit} {s s' : St α} {r : List Lit},
    solverFromUserLits e b ls s = .ok (s', r) → r.length = ls.length
  | [], _, _, _, h => by cases h; rfl
  | l :: ls, s, s', r, h => by
    rw [solverFromUserLits] at h
    obtain ⟨⟨t, v⟩, h1, h⟩ := bind_inv h
    obtain ⟨⟨t2, q⟩, h2, h⟩ := bind_inv h
    cases h
    rw [List.length_cons, List.length_cons, solverFromUserLits_length h2]

theorem assume_says {e : Env α} {s s' : St α} {ls : List Lit} (h : s.assume e ls = .ok s') :
    ∃ t c, Says a d s t ∧ s' = t.emitG (.assumptions c) ∧ c.length = ls.length := by
  unfold assume at h
  obtain ⟨t1, h1, h⟩ := bind_inv h
  obtain ⟨⟨t2, r⟩, h2, h⟩ := bind_inv h
  obtain ⟨t3, h3, h⟩ := bind_inv h
  obtain ⟨c, rfl, hl⟩ : ∃ c, s' = t3.emitG (.assumptions c) ∧ c.length = ls.length := by
    unfold emit at h
    split at h
    · rename_i y hy
      cases h
      simp only [mapStep?, Option.map_eq_some_iff] at hy
      obtain ⟨b, hb, rfl⟩ := hy
      exact ⟨b, rfl, (mapM_length hb).trans (solverFromUserLits_length h2)⟩
    · cases h
  have k := setAssumed_says (a := a) (d := d) h3
  have h2 : Says a d t1 t2 := solverFromUserLits_says h2
  have k2 : Says a d t2 t3 := k
  exact ⟨t3, c, Says.trans (Says.same rfl) ((setAssumed_says h1).trans (h2.trans k2)), rfl, hl⟩

theorem storeClause_says {e : Env α} {s s' : St α} {b : Bool} {ls : List Lit} (h : s.storeClause e b ls = .ok s') : Says a d s s' := by
  unfold storeClause at h
  split at h
  · cases h; exact Says.same rfl
  · split at h
    · cases h; exact Says.same rfl
    · cases h; exact Says.same rfl
  · cases h; exact Says.same rfl
  · split at h
    · cases h
    · cases h; exact Says.same rfl

/-- The steps start with one clause, after names of variables, and add no other. -/
def SaysOne (s s' : St α) : Prop :=
  ∃ t c, Says false false s t ∧ Says false false (t.emitG (.addClause c)) s'

theorem SaysOne.pre {s t u : St α} (h : Says false false s t) (k : SaysOne t u) : SaysOne s u := by
  obtain ⟨v, c, h1, h2⟩ := k
  exact ⟨v, c, h.trans h1, h2⟩

theorem SaysOne.says {s s' : St α} (h : SaysOne s s') : Says true d s s' := by
  obtain ⟨t, c, h1, h2⟩ := h
  exact (h1.adding.trans ((emitG_says t (.inl (.inr ⟨rfl, _, rfl⟩))).trans h2.adding)).mono

theorem loadLits_says {e : Env α} {s s' : St α} {ls : List Lit} (h : s.loadLits e ls = .ok s') : SaysOne s s' := by
  unfold loadLits at h
  obtain ⟨t, h1, h⟩ := bind_inv h
  obtain ⟨c, rfl⟩ : ∃ c, t = s.emitG (.addClause c) := by
    unfold emit at h1
    split at h1
    · rename_i y hy
      cases h1
      simp only [mapStep?, Option.map_eq_some_iff] at hy
      obtain ⟨b, _, rfl⟩ := hy
      exact ⟨b, rfl⟩
    · cases h1
  refine ⟨s, c, Says.refl s, ?_⟩
  split at h
  · cases h; exact Says.refl _
  have key : ∀ {u : St α}, Says false false (s.emitG (.addClause c)) u → (let r := scanLits u.p (dedupLits (sortLits ls))
      let s := { u with p := r.2.1.foldl (fun (p : Pt) (l : Lit) => p.resurrect l.neg) u.p }
      let lits := r.1 ++ r.2.1
      if r.2.2 then
        if lits.length > 1 then s.emit (.deleteClause lits .satisfied) else pure s
      else s.storeClause e r.1.isEmpty lits) = .ok s' → Says false false (s.emitG (.addClause c)) s' := by
    intro u hu h
    simp only at h
    have hg : Says false false (s.emitG (.addClause c)) ({ u with p := (scanLits u.p (dedupLits (sortLits ls))).2.1.foldl (fun (p : Pt) (l : Lit) => p.resurrect l.neg) u.p } : St α) :=
      hu.trans (Says.same rfl)
    split at h
    · split at h
      · exact hg.trans (emit_says h (.inr ⟨_, rfl⟩))
      · cases h; exact hg
    · exact hg.trans (storeClause_says h)
  split at h
  · obtain ⟨u, h2, h⟩ := bind_inv h
    exact key (clearIsolated_says h2) h
  · exact key (Says.refl _) h

theorem loadClause_says {e : Env α} {s s' : St α} {ls : List Lit} (h : s.loadClause e ls = .ok s') :
    s.sat = .unsat ∧ s'.log = s.log ∨ s.sat ≠ .unsat ∧ SaysOne s s' := by
  unfold loadClause at h
  split at h
  · rename_i hu
    cases h; exact .inl ⟨hu, rfl⟩
  · rename_i hu
    obtain ⟨⟨t, r⟩, h1, h⟩ := bind_inv h
    have k := solverFromUserLits_says (a := false) (d := false) h1
    exact .inr ⟨hu, SaysOne.pre (Says.trans (y := St.fullRestart { s with sat := if s.sat = .sat then .unknown else s.sat, formulaEmpty := false })
      (Says.same rfl) k) (loadLits_says h)⟩

/-- Calls other than `solve` and `assume`. -/
theorem step_says {e : Env α} {s s' : St α} {op : Op} {r : List Nat} (h : s.step e op = .ok (s', r)) (hop : ∀ n, op ≠ .solve n)
    (hop2 : ∀ ls, op ≠ .assume ls) (ha : (∃ c, op = .addClause c) → a = true) (hd : (∃ u, op = .hideVar u) → d = true) : Says a d s s' := by
  unfold step at h
  cases op with
  | addClause c =>
    obtain ⟨t, h1, h⟩ := bind_inv h
    cases h
    obtain rfl := ha ⟨c, rfl⟩
    rcases loadClause_says h1 with ⟨_, k⟩ | ⟨_, k⟩
    · exact Says.same k
    · exact k.says
  | newVar =>
    obtain ⟨⟨t, u⟩, h1, h⟩ := bind_inv h
    cases h
    unfold newUserVar at h1
    obtain ⟨⟨t2, g⟩, h2, h1⟩ := bind_inv h1
    cases h1
    exact Says.trans (y := { s with formulaEmpty := false }) (Says.same rfl) (globalFromUser_says h2)
  | assume ls => exact absurd rfl (hop2 ls)
  | solve n => exact absurd rfl (hop n)
  | witnessVar u =>
    obtain ⟨t, h1, h⟩ := bind_inv h
    cases h; exact setUserMode_says h1 (fun h => by cases h)
  | sampleVar u =>
    obtain ⟨t, h1, h⟩ := bind_inv h
    cases h; exact setUserMode_says h1 (fun h => by cases h)
  | hideVar u =>
    obtain ⟨t, h1, h⟩ := bind_inv h
    cases h; exact setUserMode_says h1 (fun _ => hd ⟨_, rfl⟩)
  | observe => exact observeLoop_says h

/-- All calls but `solve`: the kinds of steps. -/
theorem step_says_all {e : Env α} {s s' : St α} {op : Op} {r : List Nat} (h : s.step e op = .ok (s', r)) (hop : ∀ n, op ≠ .solve n)
    (hd : (∃ u, op = .hideVar u) → d = true) :
    ∃ L, s'.log = s.log ++ L ∧ ∀ st ∈ L, (Checker.Prep st ∨ ∃ c, st = .addClause c) ∨ d = true ∧ ∃ v, st = .deleteVar v := by
  have weak : ∀ st, Readies true d st → (Checker.Prep st ∨ ∃ c, st = .addClause c) ∨ d = true ∧ ∃ v, st = .deleteVar v := by
    rintro st ((h | ⟨-, h⟩) | h)
    · exact .inl (.inl h.1)
    · exact .inl (.inr h)
    · exact .inr h
  by_cases ho : ∃ ls, op = .assume ls
  · obtain ⟨ls, rfl⟩ := ho
    obtain ⟨t, h1, h2⟩ := bind_inv (show (s.assume e ls >>= fun q => pure (q, [])) = .ok (s', r) from h)
    cases h2
    obtain ⟨u, c, ⟨L, h3, h4⟩, rfl, -⟩ := assume_says (a := true) (d := d) h1
    refine ⟨L ++ [.assumptions c], by show u.log ++ [_] = _; rw [h3, List.append_assoc], fun st hst => ?_⟩
    rcases List.mem_append.1 hst with hst | hst
    · exact weak st (h4 st hst)
    · rw [List.mem_singleton.1 hst]; exact .inl (.inl trivial)
  · obtain ⟨L, h3, h4⟩ := step_says (a := true) (d := d) h hop (fun ls hl => ho ⟨ls, hl⟩) (fun _ => rfl) hd
    exact ⟨L, h3, fun st hst => weak st (h4 st hst)⟩

end St
end Varisat.Solver
