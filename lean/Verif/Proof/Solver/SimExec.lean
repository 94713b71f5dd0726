import Verif.Proof.Solver.SimFail
/-!
# Whole histories, as the checker sees them
-/
namespace Varisat.Solver

open Api (Abs Hist)
open Checker (View LitsOk SamplingMode hashOf)

variable {α : Type} [LinearOrder α]
variable {a : Option Abs} {l m : Lit} {s s' : St α} {e : Env α}
variable {F : List (List Lit)} {A : List Lit} {ids : Nat → Nat}

theorem St.emit_vars {x : ProofStep} (h : s.emit x = .ok s') : s'.vars = s.vars := by
  unfold St.emit at h
  split at h
  · cases h; rfl
  · cases h

theorem St.proveUnits_vars {b : Bool} (h : s.proveUnits = .ok (s', b)) : s'.vars = s.vars := by
  unfold St.proveUnits at h
  split at h
  · simp only at h
    split at h
    · cases h
    · split at h
      · cases h; rfl
      · obtain ⟨t, h1, h⟩ := bind_inv h
        cases h
        exact (St.emit_vars h1 :)
  · cases h; rfl

theorem St.learn_vars {c : Conflict} (h : s.learn e c = .ok s') : s'.vars = s.vars := by
  unfold St.learn at h
  obtain ⟨L, h1, h⟩ := bind_inv h
  obtain ⟨t, h2, h⟩ := bind_inv h
  have hv : t.vars = s.vars := (St.emit_vars h2 :)
  rw [← hv]
  unfold St.addLearned at h
  split at h
  · cases h; rfl
  · cases h; rfl
  · cases h; rfl
  · simp only at h
    split at h
    · cases h
    · cases h; rfl

/-- `solve` creates no solver variables. -/
theorem Inv.solve_slen {b : Abs} {n : Nat} {o : Bool} (hi : Inv b ids s) (ho : s.solve e n = .ok (s', o)) :
    s'.vars.gfs.len = s.vars.gfs.len := by
  rcases solve_trace ho with ⟨k1, rfl⟩ | ⟨k1, t, k2, k3⟩
  · rfl
  suffices hs : t.vars.gfs.len = s.vars.gfs.len by
    subst k3; exact hs
  cases k2 with
  | @model u h1 =>
    cases h1 with
    | @none t1 t2 h1 h2 h3 =>
      obtain ⟨q1, ⟨q2, q2'⟩, _, q3, q4⟩ := h1.sinv hi
      obtain ⟨z, r, f1, f2, f3, f4, f5, f6⟩ := q1.enqueueAssumption q2 q2' (q3 (.inr rfl))
      rw [h2] at f1; cases f1
      simp only at f6
      obtain ⟨z, r, g1, g2, g3, g4, g5, g6, g7⟩ := f2.makeDecision f4 (by rw [f6.1]; exact q2') f5 f6.2
      rw [g1]
      show z.vars.gfs.len = _
      rw [show z.vars = t2.vars by rw [g5], f3.vars]; exact (h1.vless hi).slen
  | @unsat u t c e h1 h2 h3 =>
    cases h1 with
    | @conflict t1 _ _ _ h1 h4 => rw [St.learn_vars h2, St.proveUnits_vars h4]; exact (h1.vless hi).slen
  | @assumption u h1 =>
    cases h1 with
    | @assumption t1 _ h1 h2 =>
      obtain ⟨q1, ⟨q2, q2'⟩, _, q3, q4⟩ := h1.sinv hi
      obtain ⟨z, r, f1, f2, f3, f4, f5, f6⟩ := q1.enqueueAssumption q2 q2' (q3 (.inr rfl))
      rw [h2] at f1; cases f1
      show u.vars.gfs.len = _
      rw [f3.vars]; exact (h1.vless hi).slen

/-- `solve`. -/
theorem Tracked.solve {b : Abs} {n : Nat} {o : Bool} (h : Tracked (some b) s) (hi : Inv b ids s) (hlen : s.vars.gfs.len < 2 ^ 32)
    (ho : s.solve e n = .ok (s', o)) (hc : Tidy s) :
    Tracked (some b) s' := by
  rcases solve_trace ho with ⟨k1, rfl⟩ | ⟨k1, t, k2, k3⟩
  · exact h.change rfl rfl rfl rfl rfl Iff.rfl h.r fun _ => Iff.rfl
  suffices hs : Tracked (some b) t by
    subst k3
    exact hs.change rfl rfl rfl rfl rfl Iff.rfl hs.r fun _ => Iff.rfl
  cases k2 with
  | @model u h1 =>
    cases h1 with
    | @none t1 t2 h1 h2 h3 =>
      obtain ⟨q1, ⟨q2, q2'⟩, _, q3, q4⟩ := h1.sinv hi
      have ht : Tracked (some b) t1 := h1.tracked hi h hlen
      have hvl := h1.vless hi
      obtain ⟨z, r, f1, f2, f3, f4, f5, f6⟩ := q1.enqueueAssumption q2 q2' (q3 (.inr rfl))
      rw [h2] at f1; cases f1
      simp only at f6
      obtain ⟨z, r, g1, g2, g3, g4, g5, g6, g7⟩ := f2.makeDecision f4 (by rw [f6.1]; exact q2') f5 f6.2
      have ht2 := (Tracked.enqLoop _ ht q1.core.c.tr h2 (by simp)).makeDecision f2
      rw [g1] at h3 ht2 ⊢
      subst h3
      simp only at ht2 g2 g3 g4 g5 g6 g7 ⊢
      have hvars : z.vars = t2.vars := by rw [g5]
      obtain ⟨g8, g9⟩ := g7 trivial
      refine ht2.reconstruct g2 ?_ g3 ?_ ?_ ?_ ?_
      · intro u
        rw [hvars, f3.vars, hvl.gfu]
        exact hi.n.name u
      · rw [g8, f6.1]; exact q2'
      · rw [hvars, g8]; exact g9
      · rw [g8, g5]; exact f6.2
      · rw [g5, show ({ t2 with p := z.p, vsids := z.vsids } : St α).sat = t2.sat from rfl, f3.sat, q4]; simp
  | @unsat u t c e h1 h2 h3 =>
    cases h1 with
    | @conflict t1 _ _ _ h1 h4 =>
      obtain ⟨q1, q2, q3, _, q4⟩ := h1.sinv hi
      obtain ⟨w1, w2⟩ := h1.tracked hi h hlen
      have hvl := h1.vless hi
      by_cases hd : t1.p.decisions = []
      · exact w1.learn_zero q1 hd q2 h4 h2
      · have hpos : t1.p.curLevel ≠ 0 := by
          unfold Pt.curLevel; simpa using hd
        have p1 : t1.proveUnits = .ok (t1, false) := by unfold St.proveUnits; rw [if_neg hpos]
        rw [h4] at p1; cases p1
        exact (w2 hd).learn q1 (by omega) q2 (by rw [hvl.slen]; exact hlen) h2
  | @assumption u h1 =>
    cases h1 with
    | @assumption t1 _ h1 h2 =>
      obtain ⟨q1, ⟨q2, q2'⟩, _, q3, q4⟩ := h1.sinv hi
      have ht : Tracked (some b) t1 := h1.tracked hi h hlen
      have hvl := h1.vless hi
      obtain ⟨z, r, f1, f2, f3, f4, f5, f6⟩ := q1.enqueueAssumption q2 q2' (q3 (.inr rfl))
      rw [h2] at f1; cases f1
      have hclean := Tidy.grow hc h1.grow
      have h5 := Tracked.enqLoop_conflict _ ht q1 (fun hs => hclean.resolve_right hs) h2
      have hsat : u.sat = .unknown := f3.sat.trans q4
      refine h5.change rfl rfl rfl rfl rfl ⟨fun hh => ?_, fun hh => by cases hh⟩ h5.r fun _ => Iff.rfl
      rw [hsat] at hh; cases hh

/-- Names stay as they are until a variable is hidden; only `assume` changes the assumptions. -/
theorem absStep_keeps {c : Api.Call} {r : List Nat} {a b : Abs} (h : Abs.Step a c r b) (hc : ∀ ls, c ≠ .assume ls) :
    b.assumptions = a.assumptions ∧ ∀ u i, a.name u = some i → b.name u = some i ∨ b.name u = none := by
  cases h with
  | addClause c => exact ⟨(ensureLits_frame _ _).2, fun u i h => .inl ((NameExt.ensureLits c a).old u i h)⟩
  | ignored c h => exact ⟨rfl, fun u i h => .inl h⟩
  | newVar u h1 h2 =>
    refine ⟨?_, fun v i h => .inl ((NameExt.create a u).old v i h)⟩
    unfold Abs.create; split <;> rfl
  | assume ls => exact absurd rfl (hc ls)
  | sat h => exact ⟨rfl, fun u i h => .inl h⟩
  | unsat h => exact ⟨rfl, fun u i h => .inl h⟩
  | witnessVar u => exact ⟨(ensure_frame _ _).2, fun v i h => .inl ((NameExt.ensure a u).old v i h)⟩
  | sampleVar u => exact ⟨(ensure_frame _ _).2, fun v i h => .inl ((NameExt.ensure a u).old v i h)⟩
  | hideVar u =>
    refine ⟨(ensure_frame _ _).2, fun v i h => ?_⟩
    simp only
    by_cases hv : v = u
    · rw [if_pos hv]; exact .inr rfl
    · rw [if_neg hv]; exact .inl ((NameExt.ensure a u).old v i h)
  | observe _ _ h1 h2 h3 h4 h5 h6 h7 h8 h9 =>
    refine ⟨h7, fun v i h => ?_⟩
    by_cases hv : v ∈ r
    · rw [h2 v hv] at h; cases h
    · rw [h4 v hv]; exact .inl h

/-- The assumptions of the checker after a call. -/
theorem Tracked.rename {a b : Abs} (h : Tracked (some a) s) (hi : Inv b ids s) (h1 : b.assumptions = a.assumptions)
    (h2 : ∀ u i, a.name u = some i → b.name u = some i ∨ b.name u = none) : Tracked (some b) s := by
  obtain ⟨V, k1, k2⟩ := h.view
  refine ⟨h.v, h.r, V, k1, ⟨⟨k2.b.v, k2.b.u, k2.b.c, ?_⟩, k2.use, k2.unsat, k2.asm⟩⟩
  rintro _ ⟨rfl⟩ l hl
  obtain ⟨u, d, i, q1, q2, q3, q4, q5⟩ := k2.b.as a rfl l hl
  refine ⟨u, d, i, q1, q2, q3, ?_, by rw [h1]; exact q5⟩
  rcases h2 u i q4 with h3 | h3
  · exact h3
  · rw [hi.n.name u, q1] at h3; cases h3

/-- The proof and the number of solver variables only grow. -/
theorem Inv.step_grows {a : Abs} {op : Op} {r : List Nat} (hi : Inv a ids s) (hs : s.step e op = .ok (s', r)) :
    s.vars.gfs.len ≤ s'.vars.gfs.len ∧ s.log <+: s'.log := by
  by_cases hsolve : ∃ n, op = .solve n
  · obtain ⟨n, rfl⟩ := hsolve
    obtain ⟨⟨t, o⟩, h1, h2⟩ := bind_inv (show (s.solve e n >>= fun q => pure (q.1, [if q.2 then 1 else 0])) = .ok (s', r) from hs)
    cases h2
    refine ⟨Nat.le_of_eq (hi.solve_slen h1).symm, ?_⟩
    rcases hi.solve_core h1 with ⟨g, _⟩ | ⟨_, _, ⟨L, c, hx, g, _⟩, _⟩
    · exact g.log
    · rw [g, List.append_assoc]; exact List.prefix_append _ _
  · have hg := St.step_grow hs (fun n hn => hsolve ⟨n, hn⟩)
    exact ⟨hg.slen, hg.log⟩

/-- One call. -/
theorem Tracked.step {a : Abs} {op : Op} {r : List Nat} (h : Tracked (some a) s) (hi : Inv a ids s) (he : e.Ok)
    (ht : Tidy s) (hs : s.step e op = .ok (s', r)) (hlen : s'.vars.gfs.len < 2 ^ 32) :
    ∃ b ids', Abs.Step a op.call r b ∧ Inv b ids' s' ∧ Tracked (some b) s' := by
  rcases hi.step he op with ⟨k, _⟩ | ⟨k, _⟩ | ⟨s1, r1, b, ids', k1, k2, k3, k4⟩
  · rw [k] at hs; cases hs
  · rw [k] at hs; cases hs
  rw [k1] at hs
  cases hs
  by_cases hsolve : ∃ n, op = .solve n
  · obtain ⟨n, rfl⟩ := hsolve
    obtain ⟨⟨t, o⟩, h1, h2⟩ := bind_inv (show (s.solve e n >>= fun q => pure (q.1, [if q.2 then 1 else 0])) = .ok (s', r) from k1)
    cases h2
    have hsl := hi.solve_slen h1
    have hsl : t.vars.gfs.len = s.vars.gfs.len := hsl
    have hlen : t.vars.gfs.len < 2 ^ 32 := hlen
    have q1 := h.solve hi (by omega) h1 ht
    obtain ⟨q3, q4⟩ := absStep_keeps k2 (by simp [Op.call])
    exact ⟨b, ids', k2, k3, q1.rename k3 q3 q4⟩
  by_cases hasm : ∃ ls, op = .assume ls
  · obtain ⟨ls, rfl⟩ := hasm
    obtain ⟨t, h1, h2⟩ := bind_inv (show (s.assume e ls >>= fun q => pure (q, [])) = .ok (s', r) from k1)
    cases h2
    cases k2
    exact ⟨_, ids', .assume _ _, k3, h.assume he hi k4 h1⟩
  have k2' := k2
  obtain ⟨q3, q4⟩ := absStep_keeps k2 (by
    intro ls hc
    cases op <;> simp [Op.call] at hc
    exact hasm ⟨_, rfl⟩)
  suffices hT : Tracked (some a) s' from ⟨b, ids', k2', k3, hT.rename k3 q3 q4⟩
  cases op with
  | addClause c =>
    obtain ⟨t, h1, h2⟩ := bind_inv (show (s.loadClause e c >>= fun q => pure (q, [])) = .ok (s', r) from k1)
    cases h2
    rcases k4 with k4 | k4
    · unfold St.loadClause at h1
      rw [if_pos k4] at h1; cases h1; exact h
    · exact h.loadClause he hi k4 h1
  | newVar =>
    obtain ⟨t, h1, h2⟩ := bind_inv (show (({ s with formulaEmpty := false } : St α).newUserVar e >>= fun q => pure (q.1, [q.2])) = .ok (s', r) from k1)
    cases h2
    have h0 : Tracked (some a) { s with formulaEmpty := false } := h.change rfl rfl rfl rfl rfl Iff.rfl h.r fun _ => Iff.rfl
    exact h0.newUserVar he h1
  | assume ls => exact absurd ⟨ls, rfl⟩ hasm
  | solve n => exact absurd ⟨n, rfl⟩ hsolve
  | witnessVar u =>
    obtain ⟨t, h1, h2⟩ := bind_inv (show (s.setUserMode e u .witness >>= fun q => pure (q, [])) = .ok (s', r) from k1)
    cases h2; exact h.setUserMode he h1
  | sampleVar u =>
    obtain ⟨t, h1, h2⟩ := bind_inv (show (s.setUserMode e u .sample >>= fun q => pure (q, [])) = .ok (s', r) from k1)
    cases h2; exact h.setUserMode he h1
  | hideVar u =>
    obtain ⟨t, h1, h2⟩ := bind_inv (show (s.setUserMode e u .hide >>= fun q => pure (q, [])) = .ok (s', r) from k1)
    cases h2; exact h.setUserMode he h1
  | observe => exact h.observeLoop he k1

/-- A new solver. -/
theorem Tracked.new (e : Env α) : Tracked (some {}) (St.new e) := by
  have hi := Inv.new e
  have hroot : ∀ l, ¬ (St.new e).p.Root l := by
    rintro l ⟨h, _⟩
    have : (St.new e).p.value l.var = none := rfl
    rw [Pt.isTrue_iff, this] at h
    cases h
  have hiter : (St.new e).db.iter = [] := rfl
  refine ⟨hi.b.v, fun l hl => absurd hl (hroot l), {}, .nil, ⟨⟨⟨rfl, rfl, fun u => rfl, fun g => rfl, rfl, Nat.le_refl _, Nat.le_refl _⟩, ?_, ⟨?_, ?_⟩, ?_⟩, ⟨?_, ?_⟩, ?_, ?_⟩⟩
  · intro g b
    constructor
    · intro h; cases h
    · intro h
      have : (St.new e).vars.sfg.map g = none := rfl
      unfold KnownG at h
      rw [this] at h
      obtain ⟨d, h1, _⟩ := h
      cases h1
  · intro red ls ho hl
    cases ls with
    | nil => simp at hl
    | cons y ls => exact absurd (ho.pres y (by simp)) (by simp [Vars.pres, St.new])
  · intro red k hk hpos
    exact absurd hpos (by simp)
  · intro b hb l hl; cases hl
  · intro a b hb; cases hb
  · intro c hc; rw [hiter] at hc; cases hc
  · exact ⟨(fun h => by cases h), fun h => by cases h⟩
  · intro l hl; cases hl

/-- All histories. -/
theorem Exec.tracked {h : Hist} (x : Exec s h) (hlen : s.vars.gfs.len < 2 ^ 32) :
    ∃ a ids, Abs.Run {} h a ∧ Inv a ids s ∧ Tracked (some a) s := by
  induction x with
  | new e => exact ⟨{}, _, .nil _, Inv.new e, Tracked.new e⟩
  | @call s s' h op r e x he hs ih =>
    have hx : s.vars.gfs.len ≤ s'.vars.gfs.len ∧ s.log <+: s'.log := by
      obtain ⟨a, ids, _, hi⟩ := x.inv
      exact hi.step_grows hs
    obtain ⟨a, ids, k1, k2, k3⟩ := ih (by omega)
    obtain ⟨b, ids', q1, q2, q3⟩ := k3.step k2 he x.tidy hs hlen
    exact ⟨b, ids', k1.snoc q1, q2, q3⟩

end Varisat.Solver
