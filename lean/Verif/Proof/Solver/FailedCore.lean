import Verif.Proof.Solver.Seen
import Verif.Proof.Solver.Fail
import Verif.Proof.Solver.Plain
/-!
# The failed core after a search, and the scratch flags in all reachable states
-/
namespace Varisat.Solver
open Api (Abs Hist)

variable {α : Type} [LinearOrder α]
variable {F : List (List Lit)} {A : List Lit} {ids : Nat → Nat}

/-- The scratch flags are clean, or a failed core of one literal was found before. -/
def Tidy (s : St α) : Prop := (∀ v, s.tmp v = false) ∨ Single s.log

theorem Tidy.grow {s s' : St α} (h : Tidy s) (g : Grow s s') : Tidy s' :=
  h.elim (fun h => .inl (g.tmp h)) (fun h => .inr (h.mono g.log))

/-- Everything in a search, except for the analysis of failed assumptions at its end. -/
theorem SearchFrom.grow {s0 s : St α} {ph : Phase} (h : SearchFrom (fun x => x = s0) s ph) : Grow s0 s := by
  induction h with
  | start h1 h2 => subst h1; exact Grow.of rfl rfl rfl id
  | restart e _ ih => exact ih.trans (St.restartStep_grow _ e)
  | reduceLocals _ h ih => exact ih.trans (St.reduceLocals_grow h)
  | reduceMids _ ih => exact ih.trans (Grow.of rfl rfl rfl id)
  | collect _ h ih => exact ih.trans (Grow.of rfl rfl rfl id)
  | count _ ih => exact ih.trans (Grow.of rfl rfl rfl id)
  | propagate _ h ih => exact ih.trans (St.propagate_grow h)
  | conflict _ h ih => exact ih.trans (St.propagate_grow h)
  | @simplify s s1 s' b _ h k ih =>
    refine (ih.trans (St.proveUnits_grow h)).trans ?_
    cases b with
    | true => exact St.unitSimplify_grow k
    | false => cases k; exact Grow.refl _
  | assumption _ h ih => exact ih.trans (St.enqLoop_grow h (by simp))
  | decision _ h k ih => exact (ih.trans (St.enqLoop_grow h (by simp))).trans (St.makeDecision_grow _)
  | learn e _ h k l ih => exact (ih.trans (St.proveUnits_grow h)).trans (St.learn_grow k)

/-- The state in which a search began. -/
theorem SearchFrom.origin {S : St α → Prop} {s : St α} {ph : Phase} (h : SearchFrom S s ph) :
    ∃ s0, S s0 ∧ SearchFrom (fun x => x = s0) s ph := by
  induction h with
  | @start s h1 h2 => exact ⟨s, h1, .start rfl h2⟩
  | restart e _ ih => obtain ⟨s0, k, ih⟩ := ih; exact ⟨s0, k, ih.restart e⟩
  | reduceLocals _ h ih => obtain ⟨s0, k, ih⟩ := ih; exact ⟨s0, k, ih.reduceLocals h⟩
  | reduceMids _ ih => obtain ⟨s0, k, ih⟩ := ih; exact ⟨s0, k, ih.reduceMids⟩
  | collect _ h ih => obtain ⟨s0, k, ih⟩ := ih; exact ⟨s0, k, ih.collect h⟩
  | count _ ih => obtain ⟨s0, k, ih⟩ := ih; exact ⟨s0, k, ih.count⟩
  | propagate _ h ih => obtain ⟨s0, k, ih⟩ := ih; exact ⟨s0, k, ih.propagate h⟩
  | conflict _ h ih => obtain ⟨s0, k, ih⟩ := ih; exact ⟨s0, k, ih.conflict h⟩
  | simplify _ h k ih => obtain ⟨s0, q, ih⟩ := ih; exact ⟨s0, q, ih.simplify h k⟩
  | assumption _ h ih => obtain ⟨s0, q, ih⟩ := ih; exact ⟨s0, q, ih.assumption h⟩
  | decision _ h k ih => obtain ⟨s0, q, ih⟩ := ih; exact ⟨s0, q, ih.decision h k⟩
  | learn e _ h k l ih => obtain ⟨s0, q, ih⟩ := ih; exact ⟨s0, q, ih.learn e h k l⟩

/-- Where `enqueue_assumption` finds a false assumption. -/
theorem SInv.enqLoop_conflict : ∀ (n : Nat) {s s' : St α}, SInv F A ids s → St.enqLoop n s = .ok (s', .conflict) →
    ∃ s1 l, SInv F A ids s1 ∧ s1 = { s with asm := { s.asm with lits := s1.asm.lits } } ∧
      s1.asm.lits[s1.p.curLevel]? = some l ∧ s1.p.isFalse l = true ∧ s1.analyzeAssumption l = .ok s'
  | 0, _, _, _, h => by cases h
  | n + 1, s, s', hi, h => by
    rw [St.enqLoop] at h
    simp only at h
    split at h
    · cases h
    · rename_i l hl
      split at h
      · rename_i hv
        obtain ⟨t, h1, h⟩ := bind_inv h
        cases h
        exact ⟨s, l, hi, rfl, hl, by rw [← Pt.litValue_false]; exact hv, h1⟩
      · rename_i hv
        obtain ⟨s1, m, k1, k2, k3⟩ := SInv.enqLoop_conflict n (hi.dropAssumption hl (by rw [← Pt.litValue_true]; exact hv)) h
        exact ⟨s1, m, k1, k2, k3⟩
      · cases h

theorem mapM_forall₂ {f : Lit → Option Lit} : ∀ {c d : List Lit}, c.mapM f = some d → List.Forall₂ (fun x y => f x = some y) c d
  | [], d, h => by simp at h; subst h; exact .nil
  | x :: c, d, h => by
    rw [List.mapM_cons] at h
    cases h1 : f x with
    | none => rw [h1] at h; cases h
    | some y =>
      rw [h1] at h
      cases h2 : c.mapM f with
      | none => rw [h2] at h; cases h
      | some d' =>
        rw [h2] at h
        cases h
        exact .cons h1 (mapM_forall₂ h2)

theorem forall₂_mem {R : Lit → Lit → Prop} {c d : List Lit} (h : List.Forall₂ R c d) {x : Lit} (hx : x ∈ c) : ∃ y ∈ d, R x y := by
  induction h with
  | nil => cases hx
  | @cons a b _ _ h1 _ ih =>
    rcases List.mem_cons.1 hx with rfl | hx
    · exact ⟨b, by simp, h1⟩
    · obtain ⟨y, hy, k⟩ := ih hx
      exact ⟨y, by simp [hy], k⟩

theorem forall₂_mem' {R : Lit → Lit → Prop} {c d : List Lit} (h : List.Forall₂ R c d) {y : Lit} (hy : y ∈ d) : ∃ x ∈ c, R x y := by
  induction h with
  | nil => cases hy
  | @cons a b _ _ h1 _ ih =>
    rcases List.mem_cons.1 hy with rfl | hy
    · exact ⟨a, by simp, h1⟩
    · obtain ⟨x, hx, k⟩ := ih hy
      exact ⟨x, by simp [hx], k⟩

/-- A user literal of a solver literal. -/
theorem litOk_of_map {x : Vars} (hv : VInv x) {m u : Lit} (h : mapLit? (fun v => (x.gfs.map v).bind x.ufg.map) m = some u) :
    LitOk x u m := by
  unfold mapLit? at h
  simp only at h
  cases h1 : x.gfs.map m.var with
  | none => rw [h1] at h; cases h
  | some g =>
    rw [h1] at h
    simp only [Option.bind_some] at h
    cases h2 : x.ufg.map g with
    | none => rw [h2] at h; cases h
    | some v =>
      rw [h2] at h
      simp only [Option.map_some, Option.some.injEq] at h
      subst h
      exact ⟨g, by rw [Lit.var_mk']; exact (hv.us v g).2 h2, h1, by simp⟩

/-- What `analyze_assumption_conflict` does. -/
theorem SInv.fail {s s' : St α} (h : SInv F A ids s) {l : Lit} (hl : s.asm.lits[s.p.curLevel]? = some l)
    (hf : s.p.isFalse l = true) (hs : s.analyzeAssumption l = .ok s') :
    ∃ core : List Lit, (∀ m ∈ core, m ∈ s.asm.lits) ∧ List.Forall₂ (LitOk s.vars) s'.asm.userFailedCore core ∧
      (∃ g hs, s'.log = s.log ++ [.failedAssumptions g hs] ∧ g.length = core.length) ∧ s'.vars = s.vars ∧
      s'.asm.lits = s.asm.lits ∧
      ((∀ v, s.tmp v = false) → Tidy s' ∧ (∀ v, v ≠ l.var → s'.tmp v = false) ∧ ∀ τ, cnfSat τ F → ¬ ∀ m ∈ core, VHolds s.vars ids τ m) := by
  have hmem := h.fail_mem hl
  have hspec := fun hc => fail_spec h.core.c (flags := s.tmp) hc hf
  unfold St.analyzeAssumption at hs
  simp only at hs
  change ∀ hc, (_ ∨ _) ∧ _ at hspec
  have hlits : (cls s.bins.byLit s.db).lits = s.db.lits := rfl
  rw [hlits] at hspec
  generalize St.failLoop s.p s.db.lits s.p.trail.reverse
    { core := [l], flags := put s.tmp l.var true, count := 1 } = f at *
  split at hs
  · cases hs
  · rename_i us hus
    unfold St.emit at hs
    split at hs
    · rename_i st hst
      cases hs
      simp only [mapStep?] at hst
      cases hg : f.core.mapM (mapLit? s.vars.gfs.map) with
      | none => rw [hg] at hst; cases hst
      | some g =>
        rw [hg] at hst
        simp only [Option.map_some, Option.some.injEq] at hst
        subst hst
        have hlen : g.length = f.core.length := ((mapM_forall₂ hg).length_eq).symm
        refine ⟨f.core, hmem, ?_, ⟨g, _, rfl, hlen⟩, rfl, rfl, ?_⟩
        · have := mapM_forall₂ hus
          refine List.forall₂_iff_get.2 ⟨this.length_eq.symm, fun i h1 h2 => ?_⟩
          exact litOk_of_map h.v ((List.forall₂_iff_get.1 this).2 i h2 h1)
        · intro hc
          obtain ⟨k1, k2⟩ := hspec hc
          refine ⟨?_, ?_, ?_⟩
          · rcases k1 with k1 | ⟨k1, _⟩
            · exact .inl k1
            · right
              rw [k1] at hlen
              match g, hlen with
              | [x], _ => exact ⟨x, _, List.mem_append_right _ (List.mem_singleton.2 rfl)⟩
          · intro v hv
            rcases k1 with k1 | ⟨_, k1⟩
            · exact k1 v
            · exact k1 v hv
          · intro τ hτ hall
            refine k2 _ (h.core.s1 τ hτ).mod (fun m hm => ?_)
            rw [← vholds_iff (h.asm.pres m (hmem m hm))]
            exact hall m hm
    · cases hs

/-- A user literal stands for the same literal of the formula. -/
theorem LitOk.lit {a : Abs} {x : Vars} (hn : Names a ids x) {u m : Lit} (h : LitOk x u m) :
    ∃ g, x.gfs.map m.var = some g ∧ a.name u.var = some (ids g) ∧ a.lit u = Lit.mk' (ids g) (!m.isNeg) := by
  obtain ⟨g, k1, k2, k3⟩ := h
  have : a.name u.var = some (ids g) := by rw [hn.name, k1]; rfl
  refine ⟨g, k2, this, ?_⟩
  unfold Abs.lit
  rw [this, k3]; rfl

/-- The failed core a user sees. -/
structure CoreOk (a : Abs) (core : List Lit) : Prop where
  named : ∀ u ∈ core, (a.name u.var).isSome = true
  sub : ∀ u ∈ core, a.lit u ∈ a.assumptions
  asm : a.assumptions ≠ []

/-- `solve`: the failed core, the scratch flags and the proof. -/
theorem Inv.solve_core {a : Abs} {s s' : St α} {e : Env α} {n : Nat} {b : Bool} (h : Inv a ids s)
    (hs : s.solve e n = .ok (s', b)) :
    (Grow s s' ∧ (s'.sat = .unsatUnder → s' = { s with invoked := true })) ∨
    (s'.sat = .unsatUnder ∧ CoreOk a s'.asm.userFailedCore ∧
      (∃ L c hs, s'.log = s.log ++ L ++ [.failedAssumptions c hs] ∧ c.length = s'.asm.userFailedCore.length ∧
        ∀ c hs, .failedAssumptions c hs ∈ s.log ++ L → .failedAssumptions c hs ∈ s.log) ∧
      ((∀ v, s.tmp v = false) → Tidy s' ∧ (∃ w, ∀ v, v ≠ w → s'.tmp v = false) ∧ UnsatUnder a.clauses (s'.asm.userFailedCore.map a.lit))) := by
  have hsol := h.solve e n
  rcases solve_trace hs with ⟨k1, rfl⟩ | ⟨k1, t, k2, k3⟩
  · exact .inl ⟨Grow.of rfl rfl rfl id, fun _ => rfl⟩
  rcases hsol with hsol | ⟨s1, b1, q1, q2, _⟩
  · rw [hsol] at hs; cases hs
  rw [hs] at q1
  cases q1
  cases k2 with
  | @model u h1 =>
    left
    subst k3
    cases h1 with
    | none h1 h2 h3 =>
      refine ⟨?_, fun q => by cases q⟩
      refine ((h1.grow.trans (St.enqLoop_grow h2 (by simp))).trans (St.makeDecision_grow _)).trans ?_
      refine ⟨id, rfl, ?_, (fun q => by cases q), Nat.le_refl _, ?_⟩
      · show _ <+: St.log (St.reconstruct _)
        unfold St.reconstruct
        exact List.prefix_append _ _
      · show ∀ c hs, _ ∈ St.log (St.reconstruct _) → _
        unfold St.reconstruct
        exact St.emit_fails (by intro _ _ h; cases h)
  | @unsat u t c e h1 h2 h3 =>
    left
    subst k3
    cases h1 with
    | conflict h1 h4 =>
      have g := (h1.grow.trans (St.proveUnits_grow h4)).trans (St.learn_grow h2)
      refine ⟨g.trans (Grow.of rfl rfl rfl id), fun q => ?_⟩
      have := g.sat q
      rw [k1] at this
      cases this
  | @assumption u h1 =>
    right
    cases h1 with
    | @assumption t1 _ h1 h2 =>
      obtain ⟨i1, _⟩ := h1.sinv h
      obtain ⟨s1, l, j1, j2, j3, j4, j5⟩ := SInv.enqLoop_conflict _ i1 h2
      obtain ⟨core, c1, c2, ⟨g, hsx, c3, c3'⟩, c4, c5, c6⟩ := j1.fail j3 j4 j5
      have htmp : s1.tmp = t1.tmp := by rw [j2]
      have hlog : s1.log = t1.log := by rw [j2]
      have hvars : s'.vars = s1.vars := by rw [k3]; exact c4
      have hn : Names a ids s1.vars := by rw [← hvars]; exact q2.n
      have hcore : s'.asm.userFailedCore = u.asm.userFailedCore := by rw [k3]
      rw [hcore]
      refine ⟨by rw [k3], ⟨?_, ?_, ?_⟩, ?_, ?_⟩
      · intro x hx
        obtain ⟨m, hm, hok⟩ := forall₂_mem c2 hx
        obtain ⟨g, _, hg, _⟩ := hok.lit hn
        rw [hg]; rfl
      · intro x hx
        obtain ⟨m, hm, hok⟩ := forall₂_mem c2 hx
        obtain ⟨g, hg, _, hg2⟩ := hok.lit hn
        rw [hg2]
        exact j1.as.mem m (c1 m hm) g hg
      · have hlm := List.mem_of_getElem? j3
        obtain ⟨g, hg⟩ := Option.isSome_iff_exists.1 (j1.asm.pres l hlm)
        exact List.ne_nil_of_mem (j1.as.mem l hlm g hg)
      · rw [k3]
        obtain ⟨L, hL⟩ := h1.grow.log
        exact ⟨L, g, hsx, by show u.log = _; rw [c3, hlog, hL], c3'.trans c2.length_eq.symm, fun c hs hm =>
          h1.grow.fails c hs (by rw [← hL]; exact hm)⟩
      · intro hc
        obtain ⟨d1, d2, d3⟩ := c6 (by rw [htmp]; exact h1.grow.tmp hc)
        refine ⟨?_, ⟨l.var, ?_⟩, ?_⟩
        · rw [k3]
          rcases d1 with d1 | d1
          · exact .inl d1
          · exact .inr d1
        · rw [k3]; exact d2
        · intro τ hτ hall
          refine d3 τ hτ (fun m hm => ?_)
          obtain ⟨x, hx, hok⟩ := forall₂_mem' c2 hm
          obtain ⟨g, hg, _, hg2⟩ := hok.lit hn
          refine ⟨g, hg, ?_⟩
          have := hall _ (List.mem_map_of_mem hx)
          rw [hg2] at this
          simpa [Lit.holds] using this

/-- A solve keeps the flags tidy. -/
theorem Inv.solve_tidy {a : Abs} {s s' : St α} {e : Env α} {n : Nat} {b : Bool} (h : Inv a ids s)
    (hs : s.solve e n = .ok (s', b)) (ht : Tidy s) : Tidy s' := by
  rcases h.solve_core hs with ⟨g, _⟩ | ⟨_, _, k1, k2⟩
  · exact ht.grow g
  · rcases ht with ht | ht
    · exact (k2 ht).1
    · obtain ⟨L, c, hs, k1, _⟩ := k1
      exact .inr (ht.mono (by rw [k1, List.append_assoc]; exact List.prefix_append _ _))

/-- The flags are tidy after all calls. -/
theorem Exec.tidy {s : St α} {h : Hist} (x : Exec s h) : Tidy s := by
  induction x with
  | new e => exact .inl (fun _ => rfl)
  | @call s s' h op r e hx he hs ih =>
    obtain ⟨a, ids, _, hi⟩ := hx.inv
    by_cases hop : ∃ n, op = .solve n
    · obtain ⟨n, rfl⟩ := hop
      obtain ⟨⟨t, b⟩, h1, h2⟩ := bind_inv (show (s.solve e n >>= fun q => pure (q.1, [if q.2 then 1 else 0])) = .ok (s', r) from hs)
      cases h2
      exact hi.solve_tidy h1 ih
    · exact ih.grow (St.step_grow hs (fun n hn => hop ⟨n, hn⟩))

/-- The flags are tidy at all places in a search. -/
theorem SearchFrom.tidy {s : St α} {ph : Phase} (h : Search s ph) : Tidy s := by
  obtain ⟨s0, ⟨_, h0⟩, h⟩ := h.origin
  exact h0.tidy.grow h.grow

end Varisat.Solver
