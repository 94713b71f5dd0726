import Verif.Proof.Solver.Seen
import Verif.Proof.Solver.Short
/-!
# Operations on variables keep solver and checker in step
-/
namespace Varisat.Solver

open Api (Abs)
open Checker (View LitsOk SamplingMode hashOf upd)

variable {α : Type} [LinearOrder α]

/-- The checker accepts the proof so far, and agrees with the solver. -/
structure Tracked (a : Option Abs) (s : St α) : Prop where
  v : VInv s.vars
  r : R0 s.p
  view : ∃ V, Seen s.log V ∧ Sim a s V

theorem InUse.mono {x y : Vars} {bin : Lit → List Lit} {db : Db α} (h : InUse x bin db)
    (hp : ∀ v, x.pres v → y.pres v) : InUse y bin db :=
  ⟨fun a b hb => ⟨fun l hl => hp _ ((h.bins a b hb).pres l hl), (h.bins a b hb).nodup⟩,
   fun c hc => ⟨⟨fun l hl => hp _ ((h.long c hc).1.pres l hl), (h.long c hc).1.nodup⟩, (h.long c hc).2⟩⟩

variable {a : Option Abs} {s s' : St α} {e : Env α}

/-! ### User and global variables -/

theorem Tracked.globalFromUser1 (h : Tracked a s) (he : e.Ok) {u g : Nat} {b : Bool} (hu : u ≤ s.vars.gfu.len)
    (ho : s.globalFromUser1 e u b = .ok (s', g)) :
    Tracked a s' ∧ s'.vars.gfu.map u = some g ∧ s'.vars.gfu.len = max s.vars.gfu.len (u + 1) := by
  unfold St.globalFromUser1 at ho
  split at ho
  · rename_i k hk
    split at ho
    · cases ho
    · cases ho
      refine ⟨h, hk, ?_⟩
      have := h.v.ulen u g hk
      omega
  · rename_i hk
    cases ho
    obtain ⟨V, h1, h2⟩ := h.view
    have hfree := St.chooseGlobal_free he h.v u
    obtain ⟨q1, q2⟩ := h2.b.newGlobal h.v hfree hk (St.chooseGlobal_lt u)
    refine ⟨⟨h.v.newGlobal hfree hk hu, h.r, _, h1.snoc q1 ⟨by show _ < max _ _; omega, by rintro _ ⟨rfl⟩; exact q1.1⟩, ⟨q2, ?_, h2.unsat, h2.asm⟩⟩, ?_, rfl⟩
    · exact h2.use.mono fun _ hv => hv
    · show (if u = u then some _ else _) = some _
      rw [if_pos rfl]

theorem Tracked.fillUsers (he : e.Ok) : ∀ {n : Nat} {s s' : St α}, Tracked a s →
    St.fillUsers e n s.vars.gfu.len s = .ok s' → Tracked a s' ∧ s'.vars.gfu.len = s.vars.gfu.len + n
  | 0, _, _, h, ho => by cases ho; exact ⟨h, rfl⟩
  | n + 1, s, s', h, ho => by
    rw [St.fillUsers] at ho
    obtain ⟨⟨t, g⟩, h1, ho⟩ := bind_inv ho
    obtain ⟨q1, q2, q3⟩ := h.globalFromUser1 he (Nat.le_refl _) h1
    have hl : t.vars.gfu.len = s.vars.gfu.len + 1 := by rw [q3]; omega
    simp only at ho
    rw [← hl] at ho
    obtain ⟨q4, q5⟩ := Tracked.fillUsers he q1 ho
    exact ⟨q4, by omega⟩

theorem Tracked.globalFromUser (h : Tracked a s) (he : e.Ok) {u g : Nat} {b : Bool}
    (ho : s.globalFromUser e u b = .ok (s', g)) : Tracked a s' ∧ s'.vars.gfu.map u = some g := by
  unfold St.globalFromUser at ho
  obtain ⟨t, h1, ho⟩ := bind_inv ho
  obtain ⟨q1, q2⟩ := Tracked.fillUsers he h h1
  obtain ⟨q3, q4, _⟩ := q1.globalFromUser1 he (by omega) ho
  exact ⟨q3, q4⟩

/-! ### Solver variables -/

theorem Tracked.solverFromGlobal (h : Tracked a s) (he : e.Ok) {g v : Nat} (hg : s.vars.Live g)
    (ho : s.solverFromGlobal e g = .ok (s', v)) : Tracked a s' := by
  unfold St.solverFromGlobal at ho
  split at ho
  · cases ho; exact h
  rename_i hn
  simp only at ho
  obtain ⟨t, h1, ho⟩ := bind_inv ho
  cases ho
  obtain ⟨hv, hvl⟩ := St.nextSolver_free he h.v
  have hfull := St.nextSolver_full he h.v
  generalize s.nextSolver e = v at *
  obtain ⟨d, hd, hdel⟩ := hg
  unfold St.initSolverVar at h1
  rw [show ({ s with
        vsids := if (s.vars.gfs.insert g v).len > s.vars.gfs.len then s.vsids.setVarCount e.ar (s.vars.gfs.insert g v).len else s.vsids
        vars := { s.vars with
          sfg := s.vars.sfg.insert v g
          gfs := s.vars.gfs.insert g v
          solverFree := s.vars.solverFree.filter (· ≠ v) } } : St α).data? g = some d from hd] at h1
  simp only at h1
  split at h1
  · cases h1
  cases h1
  obtain ⟨V, k1, k2⟩ := h.view
  have q := k2.b.newSolver h.v (fun r k => k2.use.stored) hd hdel hn hv hvl hfull
  have hp : ∀ w, s.vars.pres w → (s.vars.newSolver v g).pres w := by
    intro w hw
    unfold Vars.pres
    rw [show (s.vars.newSolver v g).gfs.map w = if w = v then some g else s.vars.gfs.map w from rfl]
    split
    · rfl
    · exact hw
  refine ⟨h.v.newSolver ⟨d, hd, hdel⟩ hn hv hvl, h.r.initVar v d.unit, _, k1.snoc (st := .solverVarName g (some v)) trivial
    ⟨k2.b.v.global hd, by
      rintro _ ⟨rfl⟩
      have h3 : max s.vars.gfs.len (v + 1) ≤ s.vars.data.length := q.v.slen
      have h4 := k2.b.v.nvars
      show v < V.nvars
      omega⟩, ⟨q, k2.use.mono hp, k2.unsat, ?_⟩⟩
  intro l hl
  obtain ⟨p1, p2⟩ := k2.asm l hl
  refine ⟨hp _ p1, ?_⟩
  have hne : l.var ≠ v := by
    intro he'
    unfold Vars.pres at p1
    rw [he', hv] at p1; cases p1
  show glit (s.vars.newSolver v g) l ∈ V.asm
  rw [glit_congr (x := s.vars)]
  · exact p2
  · show (if l.var = v then some g else _) = _
    rw [if_neg hne]

theorem Tracked.solverFromUser (h : Tracked a s) (he : e.Ok) {u v : Nat} {b : Bool}
    (ho : s.solverFromUser e u b = .ok (s', v)) : Tracked a s' := by
  unfold St.solverFromUser at ho
  obtain ⟨⟨t, g⟩, h1, ho⟩ := bind_inv ho
  obtain ⟨q1, q2⟩ := h.globalFromUser he h1
  obtain ⟨d, k1, k2, _⟩ := q1.v.ulive _ _ q2
  exact q1.solverFromGlobal he ⟨d, k1, k2⟩ ho

theorem Tracked.solverFromUserLits (he : e.Ok) {b : Bool} : ∀ {ls : List Lit} {s s' : St α} {r : List Lit}, Tracked a s →
    St.solverFromUserLits e b ls s = .ok (s', r) → Tracked a s'
  | [], _, _, _, h, ho => by cases ho; exact h
  | l :: ls, s, s', r, h, ho => by
    rw [St.solverFromUserLits] at ho
    obtain ⟨⟨t, v⟩, h1, ho⟩ := bind_inv ho
    obtain ⟨⟨t2, q⟩, h2, ho⟩ := bind_inv ho
    cases ho
    exact Tracked.solverFromUserLits he (h.solverFromUser he h1) h2

/-! ### Deleting variables -/

theorem Tracked.deleteGlobal (h : Tracked a s) {g : Nat} (ho : s.deleteGlobal g = .ok s') : Tracked a s' := by
  unfold St.deleteGlobal at ho
  split at ho
  · cases ho; exact h
  rename_i h1
  split at ho
  · cases ho; exact h
  rename_i h2
  split at ho
  · cases ho
  rename_i d hd
  split at ho
  · cases ho
  split at ho
  · cases ho; exact h
  cases ho
  have hu : s.vars.ufg.map g = none := by simpa using h1
  have hs : s.vars.sfg.map g = none := by simpa using h2
  obtain ⟨V, k1, k2⟩ := h.view
  obtain ⟨q1, q2⟩ := k2.b.drop h.v hd hu hs
  exact ⟨h.v.drop hd hu hs, h.r, _, k1.snoc q1 (k2.b.v.global hd), ⟨q2, k2.use.mono fun _ h => h, k2.unsat, k2.asm⟩⟩

theorem Tracked.removeSolverVar (h : Tracked a s) {v g : Nat} {d : VarData} (hg : s.vars.gfs.map v = some g)
    (hd : s.vars.data[g]? = some d) (hun : ∀ b, Known s.p (Lit.mk' v b) ↔ d.unit = some b)
    (huse : ∀ r k, 0 < stored s.bins.byLit s.db r k → ∀ l ∈ k, l.var ≠ v) (hasm : ∀ l ∈ s.asm.lits, l.var ≠ v)
    (ho : s.removeSolverVar v = .ok s') : Tracked a s' := by
  unfold St.removeSolverVar at ho
  rw [hg] at ho
  simp only at ho
  obtain ⟨V, k1, k2⟩ := h.view
  have q := k2.b.unmap h.v hg huse hd hun
  have hgfs : ∀ k, (s.vars.unmap v g).gfs.map k = if k = v then none else s.vars.gfs.map k := fun k => rfl
  refine Tracked.deleteGlobal ?_ ho
  refine ⟨h.v.unmap hg, h.r, _, k1.snoc (st := .solverVarName g none) trivial ⟨k2.b.v.global hd, fun _ h => by cases h⟩, ⟨q, ⟨?_, ?_⟩, k2.unsat, ?_⟩⟩
  · intro x y hy
    refine ⟨fun l hl => ?_, (k2.use.bins x y hy).nodup⟩
    show (s.vars.unmap v g).pres l.var
    unfold Vars.pres
    rw [hgfs, if_neg (huse false [x, y] (stored_pair hy) l hl)]
    exact (k2.use.bins x y hy).pres l hl
  · intro c hc
    have h3 := (k2.use.long c hc).2
    refine ⟨⟨fun l hl => ?_, (k2.use.long c hc).1.nodup⟩, h3⟩
    show (s.vars.unmap v g).pres l.var
    unfold Vars.pres
    rw [hgfs, if_neg (huse _ _ (stored_ref (bin := s.bins.byLit) hc (by omega)) l hl)]
    exact (k2.use.long c hc).1.pres l hl
  · intro l hl
    obtain ⟨p1, p2⟩ := k2.asm l hl
    have hne := hasm l hl
    have hgl : (s.vars.unmap v g).gfs.map l.var = s.vars.gfs.map l.var := by rw [hgfs, if_neg hne]
    refine ⟨?_, ?_⟩
    · show (s.vars.unmap v g).pres l.var
      unfold Vars.pres; rw [hgl]; exact p1
    · show glit (s.vars.unmap v g) l ∈ V.asm
      rw [glit_congr hgl]; exact p2

/-! ### Sampling modes -/

/-- Between `sample` and `witness`. -/
theorem Tracked.reMode (h : Tracked a s) {g : Nat} {d : VarData} (hd : s.vars.data[g]? = some d) (hdel : d.deleted = false)
    (h1 : d.mode ≠ .hide) {m : Mode} (hm : m ≠ .hide) :
    Tracked a (({ s with vars := s.vars.withMode g d m } : St α).emitG (.changeSamplingMode g (m == .sample))) := by
  obtain ⟨V, k1, k2⟩ := h.view
  obtain ⟨q1, q2⟩ := k2.b.withMode h.v hd hdel h1 hm
  refine ⟨?_, h.r, _, k1.snoc q1 (k2.b.v.global hd), ⟨q2, k2.use.mono fun _ h => h, k2.unsat, k2.asm⟩⟩
  have hget : ∀ k, (s.vars.withMode g d m).data[k]? = if k = g then some { d with mode := m } else s.vars.data[k]? := fun k => set_get hd k
  obtain ⟨j1, j2⟩ := Vars.withMode_data (m := m) hd
  refine ⟨h.v.us, h.v.gs, h.v.ulen, h.v.slen, ?_, ?_, ?_, h.v.ufree, h.v.sfree, ?_⟩
  · intro u k hu
    obtain ⟨e, j3, j4, j5⟩ := h.v.ulive u k hu
    by_cases hk : k = g
    · subst hk
      rw [hd] at j3; obtain rfl := Option.some.inj j3
      exact ⟨{ d with mode := m }, (hget k).trans (if_pos rfl), j4, hm⟩
    · exact ⟨e, ((hget k).trans (if_neg hk)).trans j3, j4, j5⟩
  · intro v k hk
    obtain ⟨e, q1, q2⟩ := h.v.slive v k hk
    obtain ⟨d', q3, q4, _⟩ := j2 k e q1
    exact ⟨d', q3, by rw [q4]; exact q2⟩
  · intro k e q1 q2 q3
    change (s.vars.withMode g d m).data[k]? = _ at q1
    rw [hget] at q1
    by_cases hk : k = g
    · subst hk
      exact h.v.hid _ d hd hdel h1
    · rw [if_neg hk] at q1; exact h.v.hid k e q1 q2 q3
  · intro k hk
    obtain ⟨e, q1, q2⟩ := h.v.gfree k hk
    obtain ⟨d', q3, q4, _⟩ := j2 k e q1
    exact ⟨d', q3, by rw [q4]; exact q2⟩

theorem View.step_unname (V : View) (g : Nat) :
    (V.step (.userVarName g none)).unsat = V.unsat ∧ (V.step (.userVarName g none)).asm = V.asm := by
  show (match V.user g with | some u => _ | none => V).unsat = _ ∧ (match V.user g with | some u => _ | none => V).asm = _
  cases V.user g <;> exact ⟨rfl, rfl⟩

/-- `set_sampling_mode` of a variable of the user, or to `witness`. -/
theorem Tracked.setMode (h : Tracked a s) (he : e.Ok) {g : Nat} {m : Mode} {r : Option Nat}
    (hu : (s.vars.ufg.map g).isSome = true ∨ m = .witness) (ho : s.setMode e g m = .ok (s', r)) : Tracked a s' := by
  unfold St.setMode at ho
  split at ho
  · cases ho
  rename_i d hd
  split at ho
  · cases ho
  rename_i hdel
  have hdel : d.deleted = false := by simpa using hdel
  split at ho
  · cases ho
  rename_i has
  have has : d.assumed = false := by simpa using has
  split at ho
  · cases ho; exact h
  rename_i hne
  simp only at ho
  by_cases hdm : d.mode = .hide
  · rw [if_pos hdm] at ho
    have hm : m = .witness := by
      rcases hu with hu | hu
      · obtain ⟨u, hu⟩ := Option.isSome_iff_exists.1 hu
        obtain ⟨d', k1, _, k3⟩ := h.v.ulive u g ((h.v.us u g).2 hu)
        have hd' : s.vars.data[g]? = some d := hd
        rw [hd'] at k1; obtain rfl := Option.some.inj k1
        exact absurd hdm k3
      · exact hu
    subst hm
    simp only [ne_eq, reduceCtorEq, not_false_eq_true, if_true] at ho
    have hgn : s.vars.ufg.map g = none := by
      cases hc : s.vars.ufg.map g with
      | none => rfl
      | some u =>
        obtain ⟨d', k1, _, k3⟩ := h.v.ulive u g ((h.v.us u g).2 hc)
        have hd' : s.vars.data[g]? = some d := hd
        rw [hd'] at k1; obtain rfl := Option.some.inj k1
        exact absurd hdm k3
    obtain ⟨V, k1, k2⟩ := h.view
    have hgl : g < s.vars.data.length := (List.getElem?_eq_some_iff.1 hd).1
    generalize ht : (({ s with vars := { s.vars with data := s.vars.data.set g { d with mode := .witness } } } : St α).emitG
      (.changeSamplingMode g (Mode.witness == Mode.sample))) = t at ho
    cases ho
    have hn : t.nextUser e = (({ s with log := s.log ++ [.changeSamplingMode g (Mode.witness == Mode.sample)] } : St α)).nextUser e := by
      rw [← ht]; rfl
    obtain ⟨q1, q2, q3⟩ := St.nextUser_lt (s := ({ s with log := s.log ++ [.changeSamplingMode g (Mode.witness == Mode.sample)] } : St α))
      he h.v rfl k2.b.v.ulen hgn hgl
    rw [← hn] at q1 q2 q3
    obtain ⟨p1, p2, p3⟩ := k2.b.show_ (u := t.nextUser e) hd hdel hgn q1 q3
    rw [← ht] at q1 q2 q3 p2 p3 ⊢
    exact ⟨h.v.show_ hd hdel hgn q1 q2, h.r, _, (k1.snoc p1 (k2.b.v.global hd)).snoc p2 ⟨by show g < max _ _; omega, by rintro _ ⟨rfl⟩; exact p2.1⟩, ⟨p3, k2.use.mono fun _ h => h, k2.unsat, k2.asm⟩⟩
  · rw [if_neg hdm] at ho
    obtain ⟨u, hgu⟩ := Option.isSome_iff_exists.1 (h.v.hid g d hd hdel hdm)
    have hug := (h.v.us u g).2 hgu
    by_cases hm : m = .hide
    · rw [if_pos hm] at ho
      subst hm
      simp only [ne_eq, not_true_eq_false, if_false] at ho
      obtain ⟨t, h1, ho⟩ := bind_inv ho
      cases ho
      refine Tracked.deleteGlobal ?_ h1
      rw [hgu]
      simp only
      obtain ⟨V, k1, k2⟩ := h.view
      obtain ⟨q1, q2⟩ := k2.b.hide h.v hd hdel has hug
      refine ⟨h.v.hide hd hug, h.r, _, k1.snoc q1 ⟨Nat.lt_of_lt_of_le (k2.b.v.global hd) (view_nvars V _), fun _ h => by cases h⟩, ⟨q2, k2.use.mono fun _ h => h, ?_, ?_⟩⟩
      · rw [(View.step_unname V g).1]; exact k2.unsat
      · rw [(View.step_unname V g).2]; exact k2.asm
    · rw [if_neg hm, if_pos hm] at ho
      cases ho
      exact h.reMode hd hdel hdm hm

theorem Tracked.observeLoop (he : e.Ok) : ∀ {gs : List Nat} {s s' : St α} {r : List Nat}, Tracked a s →
    St.observeLoop e gs s = .ok (s', r) → Tracked a s'
  | [], _, _, _, h, ho => by cases ho; exact h
  | g :: gs, s, s', r, h, ho => by
    rw [St.observeLoop] at ho
    split at ho
    · cases ho
    split at ho
    · obtain ⟨⟨t, o⟩, h1, ho⟩ := bind_inv ho
      obtain ⟨⟨t2, q⟩, h2, ho⟩ := bind_inv ho
      simp only at ho
      cases o with
      | none => cases ho
      | some u =>
        cases ho
        exact Tracked.observeLoop he (h.setMode he (.inr rfl) h1) h2
    · exact Tracked.observeLoop he h ho

theorem Tracked.setUserMode (h : Tracked a s) (he : e.Ok) {u : Nat} {m : Mode} (ho : s.setUserMode e u m = .ok s') : Tracked a s' := by
  unfold St.setUserMode at ho
  obtain ⟨⟨t, g⟩, h1, ho⟩ := bind_inv ho
  obtain ⟨⟨t2, r⟩, h2, ho⟩ := bind_inv ho
  cases ho
  obtain ⟨q1, q2⟩ := h.globalFromUser he h1
  exact q1.setMode he (.inl (by rw [(q1.v.us u g).1 q2]; rfl)) h2

theorem Tracked.newUserVar (h : Tracked a s) (he : e.Ok) {u : Nat} (ho : s.newUserVar e = .ok (s', u)) : Tracked a s' := by
  unfold St.newUserVar at ho
  obtain ⟨⟨t, g⟩, h1, ho⟩ := bind_inv ho
  cases ho
  exact (h.globalFromUser he h1).1

end Varisat.Solver
