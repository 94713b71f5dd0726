import Verif.Proof.Solver.Term
import Verif.Props.C36_Luby
/-!
# How long the first search of a solver can take
-/
namespace Varisat.Solver

open Api (Hist)

variable {α : Type} [LinearOrder α]

namespace St

/-! ### Calls other than `solve` do not touch the schedule -/

/-- The schedule stays the same, and no free solver variables appear. -/
def Kp (s s' : St α) : Prop := s'.sched = s.sched ∧ (s.vars.solverFree = [] → s'.vars.solverFree = [])

theorem Kp.trans {a b c : St α} (h : Kp a b) (k : Kp b c) : Kp a c := ⟨k.1.trans h.1, fun q => k.2 (h.2 q)⟩

theorem emit_sched {s s' : St α} {x : ProofStep} (h : s.emit x = .ok s') : Kp s s' := by
  unfold emit at h
  split at h
  · cases h; exact ⟨rfl, id⟩
  · cases h

theorem updSolverData_sched {s s' : St α} {v : Nat} {f : VarData → VarData} (h : s.updSolverData v f = .ok s') :
    Kp s s' := by
  unfold updSolverData at h
  repeat' split at h
  all_goals first | (cases h; done) | (cases h; exact ⟨rfl, id⟩)

theorem globalFromUser1_sched {e : Env α} {s s' : St α} {u g : Nat} {b : Bool} (h : s.globalFromUser1 e u b = .ok (s', g)) :
    Kp s s' := by
  unfold globalFromUser1 at h
  repeat' split at h
  all_goals first | (cases h; done) | (cases h; exact ⟨rfl, id⟩)

theorem fillUsers_sched {e : Env α} : ∀ {n i : Nat} {s s' : St α}, fillUsers e n i s = .ok s' → Kp s s'
  | 0, _, _, _, h => by cases h; exact ⟨rfl, id⟩
  | n + 1, i, s, s', h => by
    rw [fillUsers] at h
    obtain ⟨⟨t, g⟩, h1, h⟩ := bind_inv h
    exact Kp.trans (globalFromUser1_sched h1) (fillUsers_sched h)

theorem globalFromUser_sched {e : Env α} {s s' : St α} {u g : Nat} {b : Bool} (h : s.globalFromUser e u b = .ok (s', g)) :
    Kp s s' := by
  unfold globalFromUser at h
  obtain ⟨t, h1, h⟩ := bind_inv h
  exact Kp.trans (fillUsers_sched h1) (globalFromUser1_sched h)

theorem initSolverVar_sched {e : Env α} {s s' : St α} {v g : Nat} (h : s.initSolverVar e v g = .ok s') : Kp s s' := by
  unfold initSolverVar at h
  split at h
  · cases h
  · simp only at h
    split at h
    · cases h
    · cases h; exact ⟨rfl, id⟩

theorem solverFromGlobal_sched {e : Env α} {s s' : St α} {g v : Nat} (h : s.solverFromGlobal e g = .ok (s', v)) :
    Kp s s' := by
  unfold solverFromGlobal at h
  split at h
  · cases h; exact ⟨rfl, id⟩
  · obtain ⟨t, h1, h⟩ := bind_inv h
    cases h
    have k := initSolverVar_sched h1
    refine ⟨k.1, fun q => k.2 ?_⟩
    show s.vars.solverFree.filter _ = []
    rw [q]; rfl

theorem solverFromUserLits_sched {e : Env α} {b : Bool} : ∀ {ls : List Lit} {s s' : St α} {r : List Lit},
    solverFromUserLits e b ls s = .ok (s', r) → Kp s s'
  | [], _, _, _, h => by cases h; exact ⟨rfl, id⟩
  | l :: ls, s, s', r, h => by
    rw [solverFromUserLits] at h
    obtain ⟨⟨t, v⟩, h1, h⟩ := bind_inv h
    obtain ⟨⟨t2, r2⟩, h2, h⟩ := bind_inv h
    cases h
    unfold solverFromUser at h1
    obtain ⟨⟨t3, g⟩, h3, h1⟩ := bind_inv h1
    exact Kp.trans (Kp.trans (globalFromUser_sched h3) (solverFromGlobal_sched h1)) (solverFromUserLits_sched h2)

theorem deleteGlobal_sched {s s' : St α} {g : Nat} (h : s.deleteGlobal g = .ok s') : Kp s s' := by
  unfold deleteGlobal at h
  repeat' split at h
  all_goals first | (cases h; done) | (cases h; exact ⟨rfl, id⟩)

theorem setMode_sched {e : Env α} {s s' : St α} {g : Nat} {m : Mode} {o : Option Nat} (h : s.setMode e g m = .ok (s', o)) :
    Kp s s' := by
  unfold setMode at h
  split at h
  · cases h
  rename_i d _
  split at h
  · cases h
  split at h
  · cases h
  split at h
  · cases h; exact ⟨rfl, id⟩
  have he : Kp s (if m ≠ .hide then
        St.emitG { s with vars := { s.vars with data := s.vars.data.set g { d with mode := m } } } (.changeSamplingMode g (m == .sample))
      else { s with vars := { s.vars with data := s.vars.data.set g { d with mode := m } } }) := by
    split <;> exact ⟨rfl, id⟩
  simp only at h
  generalize (if m ≠ .hide then
        St.emitG { s with vars := { s.vars with data := s.vars.data.set g { d with mode := m } } } (.changeSamplingMode g (m == .sample))
      else { s with vars := { s.vars with data := s.vars.data.set g { d with mode := m } } }) = u at h he
  split at h
  · cases h
    exact Kp.trans he ⟨rfl, id⟩
  split at h
  · obtain ⟨t, h1, h⟩ := bind_inv h
    cases h
    refine Kp.trans (Kp.trans he ?_) (deleteGlobal_sched h1)
    refine ⟨rfl, fun q => ?_⟩
    dsimp only [emitG]
    split
    · exact q
    · exact q
  · cases h
    exact he

theorem observeLoop_sched {e : Env α} : ∀ {gs : List Nat} {s s' : St α} {r : List Nat}, observeLoop e gs s = .ok (s', r) →
    Kp s s'
  | [], _, _, _, h => by cases h; exact ⟨rfl, id⟩
  | g :: gs, s, s', r, h => by
    rw [observeLoop] at h
    split at h
    · cases h
    · split at h
      · obtain ⟨⟨t, o⟩, h1, h⟩ := bind_inv h
        obtain ⟨⟨t2, r2⟩, h2, h⟩ := bind_inv h
        have k := Kp.trans (setMode_sched h1) (observeLoop_sched h2)
        simp only at h
        split at h
        · cases h; exact k
        · cases h
      · exact observeLoop_sched h

theorem setAssumed_sched {b : Bool} : ∀ {ls : List Lit} {s s' : St α}, setAssumed b ls s = .ok s' → Kp s s'
  | [], _, _, h => by cases h; exact ⟨rfl, id⟩
  | l :: ls, s, s', h => by
    rw [setAssumed] at h
    obtain ⟨t, h1, h⟩ := bind_inv h
    exact Kp.trans (updSolverData_sched h1) (setAssumed_sched h)

theorem clearIsolated_sched : ∀ {ls : List Lit} {s s' : St α}, clearIsolated ls s = .ok s' → Kp s s'
  | [], _, _, h => by cases h; exact ⟨rfl, id⟩
  | l :: ls, s, s', h => by
    rw [clearIsolated] at h
    obtain ⟨t, h1, h⟩ := bind_inv h
    exact Kp.trans (updSolverData_sched h1) (clearIsolated_sched h)

theorem storeClause_sched {e : Env α} {s s' : St α} {b : Bool} {ls : List Lit} (h : s.storeClause e b ls = .ok s') :
    Kp s s' := by
  unfold storeClause at h
  repeat' split at h
  all_goals first | (cases h; done) | (cases h; exact ⟨rfl, id⟩)

theorem loadLits_sched {e : Env α} {s s' : St α} {ls : List Lit} (h : s.loadLits e ls = .ok s') : Kp s s' := by
  unfold loadLits at h
  obtain ⟨t, h1, h⟩ := bind_inv h
  have k1 := emit_sched h1
  split at h
  · cases h; exact k1
  have key : ∀ {u : St α}, Kp s u → (let r := scanLits u.p (dedupLits (sortLits ls))
      let s := { u with p := r.2.1.foldl (fun (p : Pt) (l : Lit) => p.resurrect l.neg) u.p }
      let lits := r.1 ++ r.2.1
      if r.2.2 then
        if lits.length > 1 then s.emit (.deleteClause lits .satisfied) else pure s
      else s.storeClause e r.1.isEmpty lits) = .ok s' → Kp s s' := by
    intro u hu h
    simp only at h
    split at h
    · split at h
      · have k := emit_sched h
        exact Kp.trans hu k
      · cases h; exact hu
    · have k := storeClause_sched h
      exact Kp.trans hu k
  split at h
  · obtain ⟨u, h2, h⟩ := bind_inv h
    exact key (Kp.trans k1 (clearIsolated_sched h2)) h
  · exact key k1 h

theorem step_sched {e : Env α} {s s' : St α} {op : Op} {r : List Nat} (hop : op.call ≠ .solve) (h : s.step e op = .ok (s', r)) :
    Kp s s' := by
  cases op with
  | addClause c =>
    obtain ⟨t, h1, h⟩ := bind_inv (show (s.loadClause e c >>= fun t => pure (t, [])) = .ok (s', r) from h)
    cases h
    unfold loadClause at h1
    split at h1
    · cases h1; exact ⟨rfl, id⟩
    · obtain ⟨⟨t2, ls⟩, h2, h1⟩ := bind_inv h1
      have k1 := solverFromUserLits_sched h2
      exact Kp.trans (Kp.trans ⟨rfl, id⟩ k1) (loadLits_sched h1)
  | newVar =>
    obtain ⟨t, h1, h⟩ := bind_inv (show ({ s with formulaEmpty := false }.newUserVar e >>= fun r => pure (r.1, [r.2])) = .ok (s', r) from h)
    cases h
    unfold newUserVar at h1
    obtain ⟨⟨t2, g⟩, h2, h1⟩ := bind_inv h1
    cases h1
    have k := globalFromUser_sched h2
    exact k
  | assume ls =>
    obtain ⟨t, h1, h⟩ := bind_inv (show (s.assume e ls >>= fun t => pure (t, [])) = .ok (s', r) from h)
    cases h
    unfold assume at h1
    obtain ⟨t2, h2, h1⟩ := bind_inv h1
    obtain ⟨⟨t3, q⟩, h3, h1⟩ := bind_inv h1
    obtain ⟨t4, h4, h1⟩ := bind_inv h1
    have k2 := setAssumed_sched h2
    have k3 := solverFromUserLits_sched h3
    have k4 := setAssumed_sched h4
    exact Kp.trans (Kp.trans (Kp.trans (Kp.trans (b := { s.fullRestart with sat := _ }) ⟨rfl, id⟩ k2) k3) (Kp.trans (b := { t3 with asm := _ }) ⟨rfl, id⟩ k4)) (emit_sched h1)
  | solve n => exact absurd rfl hop
  | witnessVar u =>
    obtain ⟨t, h1, h⟩ := bind_inv (show (s.setUserMode e u .witness >>= fun t => pure (t, [])) = .ok (s', r) from h)
    cases h
    unfold setUserMode at h1
    obtain ⟨⟨t2, g⟩, h2, h1⟩ := bind_inv h1
    obtain ⟨⟨t3, o⟩, h3, h1⟩ := bind_inv h1
    cases h1
    exact Kp.trans (globalFromUser_sched h2) (setMode_sched h3)
  | sampleVar u =>
    obtain ⟨t, h1, h⟩ := bind_inv (show (s.setUserMode e u .sample >>= fun t => pure (t, [])) = .ok (s', r) from h)
    cases h
    unfold setUserMode at h1
    obtain ⟨⟨t2, g⟩, h2, h1⟩ := bind_inv h1
    obtain ⟨⟨t3, o⟩, h3, h1⟩ := bind_inv h1
    cases h1
    exact Kp.trans (globalFromUser_sched h2) (setMode_sched h3)
  | hideVar u =>
    obtain ⟨t, h1, h⟩ := bind_inv (show (s.setUserMode e u .hide >>= fun t => pure (t, [])) = .ok (s', r) from h)
    cases h
    unfold setUserMode at h1
    obtain ⟨⟨t2, g⟩, h2, h1⟩ := bind_inv h1
    obtain ⟨⟨t3, o⟩, h3, h1⟩ := bind_inv h1
    cases h1
    exact Kp.trans (globalFromUser_sched h2) (setMode_sched h3)
  | observe =>
    have h : s.observeInternal e = .ok (s', r) := h
    unfold observeInternal at h
    exact observeLoop_sched h

end St

/-- Before the first `solve` the schedule is new and no solver variable was removed. -/
theorem Exec.fresh_sched {s : St α} {h : Hist} (x : Exec s h) (hn : ∀ y ∈ h, y.1 ≠ .solve) :
    s.sched = {} ∧ s.vars.solverFree = [] := by
  induction x with
  | new e => exact ⟨rfl, rfl⟩
  | @call s s' h op r e x he hs ih =>
    obtain ⟨h1, h2⟩ := ih (fun y hy => hn y (by simp [hy]))
    obtain ⟨h3, h4⟩ := St.step_sched (hn (op.call, r) (by simp)) hs
    exact ⟨h3.trans h1, h4 h2⟩

/-- The variables of the first search are variables of the formula. -/
theorem Inv.varCount_le {a : Api.Abs} {ids : Nat → Nat} {s : St α} (h : Inv a ids s) (hf : s.vars.solverFree = []) :
    s.varCount ≤ a.next := by
  have hm : ∀ v, v < s.vars.gfs.len → ∃ g, s.vars.gfs.map v = some g := by
    intro v hv
    cases hg : s.vars.gfs.map v with
    | some g => exact ⟨g, rfl⟩
    | none =>
      have := (h.b.v.sfree v).2 ⟨hv, hg⟩
      rw [hf] at this; cases this
  have hl : ((List.range s.vars.gfs.len).map (fun v => ids ((s.vars.gfs.map v).getD 0))).length ≤ (List.range a.next).length := by
    refine List.Subperm.length_le (List.subperm_of_subset ?_ ?_)
    · refine (List.nodup_map_iff_inj_on List.nodup_range).2 ?_
      intro v hv w hw he
      obtain ⟨g, hg⟩ := hm v (List.mem_range.1 hv)
      obtain ⟨g', hg'⟩ := hm w (List.mem_range.1 hw)
      simp only [hg, hg', Option.getD_some] at he
      have := h.b.inj g g' (h.b.v.slive v g hg) (h.b.v.slive w g' hg') he
      subst this
      have h1 := (h.b.v.gs g v).2 hg
      rw [(h.b.v.gs g w).2 hg'] at h1
      exact (Option.some.inj h1).symm
    · intro i hi
      obtain ⟨v, hv, rfl⟩ := List.mem_map.1 hi
      obtain ⟨g, hg⟩ := hm v (List.mem_range.1 hv)
      simp only [hg, Option.getD_some]
      exact List.mem_range.2 (h.n.lt g (h.b.v.slive v g hg))
  rw [List.length_map, List.length_range, List.length_range] at hl
  show s.vsids.count ≤ _
  rw [h.b.q.count]
  exact hl

/-! ### Waiting times -/

theorem waits_outs (c : Nat) : ∀ (j : Nat) (L : Luby), waits c L j = c * (L.outs j).sum
  | 0, _ => rfl
  | j + 1, L => by rw [waits, waits_outs c j, Luby.outs, List.sum_cons, Nat.mul_add]

theorem seg_sum (k : Nat) : 2 * (Luby.seg k).sum = k * 2 ^ k := by
  induction k with
  | zero => rfl
  | succ k ih =>
    rw [Luby.seg, List.sum_append, List.sum_append, List.sum_singleton, Nat.pow_succ]
    have : (k + 1) * (2 ^ k * 2) = 2 * (k * 2 ^ k) + 2 * 2 ^ k := by ring
    omega

theorem outs_snoc : ∀ (n : Nat) (L : Luby), L.outs (n + 1) = L.outs n ++ [((L.after n).advance.1).toNat]
  | 0, _ => rfl
  | n + 1, L => by
    show L.advance.1.toNat :: Luby.outs (n + 1) L.advance.2 = _
    rw [outs_snoc n]; rfl

/-- The outputs before the first `2^k`. -/
theorem outs_first {k : Nat} (hk : k < 64) : (Luby.outs (2 ^ (k + 1) - 2) {}).sum = k * 2 ^ k ∧
    ((Luby.after {} (2 ^ (k + 1) - 2)).advance.1).toNat = 2 ^ k := by
  have h1 := Luby.outs_blocks (2 ^ k) 0 (Nat.pow_lt_pow_right (by decide) hk)
  rw [Luby.blocks_seg, Nat.add_zero, Luby.outs, List.append_nil, Luby.seg_length] at h1
  have hp := Nat.two_pow_pos k
  have h2 : 2 ^ (k + 1) - 1 = (2 ^ (k + 1) - 2) + 1 := by rw [Nat.pow_succ]; omega
  rw [h2, outs_snoc, Luby.seg] at h1
  obtain ⟨h3, h4⟩ := List.append_inj' h1 rfl
  refine ⟨?_, ?_⟩
  · have := seg_sum k
    rw [h3, List.sum_append]
    omega
  · exact List.singleton_inj.1 h4

end Varisat.Solver

namespace Varisat.Solver

open Api (Abs Hist Plain)

variable {α : Type} [LinearOrder α] {ids : Nat → Nat}

/-! ### The call -/

theorem Inv.after {a : Abs} {s : St α} (h : Inv a ids s) (hs : s.sat = .unknown) :
    After a.clauses a.assumptions ids { s with invoked := true } := by
  have h0 : Inv a ids { s with invoked := true } :=
    ⟨⟨h.b.v, h.b.q, h.b.fl, h.b.l0, h.b.inj, h.b.hidA, h.b.run, h.b.sat⟩, h.n, h.asm, h.as, h.unsat, h.under⟩
  have hne : s.sat ≠ .unsat := by rw [hs]; simp
  refine ⟨⟨h.b.v, h.b.q, h.b.fl, h.asm, h.b.l0⟩, fun _ => ⟨h0.sinv hne, (h0.b.run hne).2⟩, ?_, ?_, ?_⟩ <;>
    (intro k; rw [show ({ s with invoked := true } : St α).sat = s.sat from rfl, hs] at k; cases k)

theorem St.step_solve_mono {e : Env α} {n m : Nat} (hm : n ≤ m) {s s' : St α} {r : List Nat} (h : s.step e (.solve n) = .ok (s', r)) :
    s.step e (.solve m) = .ok (s', r) := by
  obtain ⟨⟨t, b⟩, h1, h2⟩ := bind_inv (show (s.solve e n >>= fun q => pure (q.1, [if q.2 then 1 else 0])) = .ok (s', r) from h)
  show (s.solve e m >>= fun q => pure (q.1, [if q.2 then 1 else 0])) = .ok (s', r)
  unfold St.solve at h1 ⊢
  obtain ⟨u, h3, h4⟩ := bind_inv h1
  rw [St.solveLoop_mono e hm h3, ok_bind]
  rw [← h2]
  have := Except.ok.inj h4
  rw [← this]
  rfl

theorem St.step_solve_of {e : Env α} {n : Nat} {s z : St α} (h : St.solveLoop e n { s with invoked := true } = .ok z) :
    ∃ s' r, s.step e (.solve n) = .ok (s', r) := by
  refine ⟨z, [if decide (z.sat = .sat) then 1 else 0], ?_⟩
  show (s.solve e n >>= fun q => pure (q.1, [if q.2 then 1 else 0])) = _
  unfold St.solve
  rw [h]
  rfl

theorem St.step_solve_known {e : Env α} {n : Nat} {s : St α} (h : s.sat ≠ .unknown) (hn : 0 < n) :
    ∃ s' r, s.step e (.solve n) = .ok (s', r) := by
  rcases St.solveLoop_known e (s := { s with invoked := true }) h n with k | k
  · obtain ⟨m, rfl⟩ : ∃ m, n = m + 1 := ⟨n - 1, by omega⟩
    rw [St.solveLoop] at k
    unfold St.scheduleStep at k
    rw [if_pos h, ok_bind] at k
    cases k
  · exact St.step_solve_of k

/-- `solve` ends. -/
theorem Exec.halts {s : St α} {h : Hist} (x : Exec s h) (e : Env α) :
    ∃ N s' r, ∀ n, N ≤ n → s.step e (.solve n) = .ok (s', r) := by
  obtain ⟨a, ids, _, hi⟩ := x.inv
  by_cases hs : s.sat = .unknown
  · obtain ⟨N, z, hz⟩ := (hi.after hs).halts e
    obtain ⟨s', r, k⟩ := St.step_solve_of hz
    exact ⟨N, s', r, fun n hn => St.step_solve_mono hn k⟩
  · obtain ⟨s', r, k⟩ := St.step_solve_known (e := e) hs Nat.one_pos
    exact ⟨1, s', r, fun n hn => St.step_solve_mono hn k⟩

/-- The first `solve`. -/
theorem Exec.first_bound {s : St α} {h : Hist} (x : Exec s h) (hn : ∀ y ∈ h, y.1 ≠ .solve) (e : Env α) :
    ∃ a, Abs.Run {} h a ∧ (a.next < 64 → ∀ n, (e.lubyScale * a.next + 1) * 2 ^ a.next + 2 ≤ n →
      ∃ s' r, s.step e (.solve n) = .ok (s', r)) := by
  obtain ⟨a, ids, h1, hi⟩ := x.inv
  refine ⟨a, h1, fun h64 n hle => ?_⟩
  obtain ⟨f1, f2⟩ := x.fresh_sched hn
  have hc := hi.varCount_le f2
  by_cases hs : s.sat = .unknown
  · obtain ⟨o1, o2⟩ := outs_first (k := s.varCount) (by omega)
    have f3 : ({ s with invoked := true } : St α).sched = {} := f1
    obtain ⟨z, hz⟩ := After.ends e (2 ^ (s.varCount + 1) - 2) 0 (hi.after hs) (k := s.varCount) rfl (by
      rw [f3]
      have := o2
      simp only
      rw [this]
      rcases Nat.eq_zero_or_pos e.lubyScale with q | q
      · left; rw [q]; rfl
      · right; exact Nat.le_mul_of_pos_right _ q) (by rw [f3])
    obtain ⟨s', r, k⟩ := St.step_solve_of hz
    refine ⟨s', r, St.step_solve_mono ?_ k⟩
    rw [f3, waits_outs, o1, Nat.zero_add]
    refine Nat.le_trans ?_ hle
    have hp : 2 ^ s.varCount ≤ 2 ^ a.next := Nat.pow_le_pow_right (by decide) hc
    have hq : e.lubyScale * (s.varCount * 2 ^ s.varCount) ≤ e.lubyScale * (a.next * 2 ^ a.next) :=
      Nat.mul_le_mul_left _ (Nat.mul_le_mul hc hp)
    rw [Nat.add_mul, Nat.one_mul, Nat.mul_assoc]
    omega
  · exact St.step_solve_known hs (by omega)

end Varisat.Solver
