import Verif.Proof.Solver.Modes
/-!
# Histories of calls
-/
namespace Varisat.Solver
open Api (Abs Hist)

variable {α : Type} [LinearOrder α]
variable {F F' : List (List Lit)} {A : List Lit} {ids : Nat → Nat}

/-! ### Calls that panic -/

theorem St.globalFromUser_panic {e : Env α} {s : St α} (hv : VInv s.vars) {u g : Nat} {d : VarData}
    (hu : s.vars.gfu.map u = some g) (hd : s.vars.data[g]? = some d) (hm : d.mode ≠ .sample) :
    s.globalFromUser e u true = .error .panic := by
  unfold St.globalFromUser
  have := hv.ulen u g hu
  rw [Nat.sub_eq_zero_of_le (Nat.le_of_lt this)]
  show St.globalFromUser1 e s u true = _
  unfold St.globalFromUser1
  rw [hu]
  simp only
  rw [if_pos]
  refine ⟨trivial, ?_⟩
  unfold St.data?
  rw [hd]
  simpa using hm

theorem St.solverFromUserLits_sample {e : Env α} (he : e.Ok) : ∀ (ls : List Lit) {s : St α} {a : Abs} {ids : Nat → Nat},
    Base a.clauses a.assumptions ids s → Names a ids s.vars →
    SampleOk s.vars ls ∨ St.solverFromUserLits e true ls s = .error .panic
  | [], _, _, _, _, _ => .inl (fun l hl => by cases hl)
  | l :: ls, s, a, ids, h, hn => by
    by_cases hs : SampleOk s.vars [l]
    · obtain ⟨s1, v, g, ids1, e1, e2, e3, e4⟩ := St.solverFromUser_ok he h hn l hs
      rcases St.solverFromUserLits_sample he ls e2.base e2.names with h1 | h1
      · left
        intro m hm k d k1 k2
        rcases List.mem_cons.1 hm with rfl | hm
        · exact hs m (by simp) k d k1 k2
        · obtain ⟨d', q1, q2, _⟩ := h.v.ulive _ _ k1
          rw [k2] at q1
          obtain rfl := Option.some.inj q1
          exact h1 m hm k d (e2.more.gfu _ _ k1) (e2.more.data _ _ k2 q2)
      · right
        rw [St.solverFromUserLits, e1, ok_bind]
        simp only
        rw [h1]; rfl
    · right
      obtain ⟨g, d, k1, k2, k3⟩ : ∃ g d, s.vars.gfu.map l.var = some g ∧ s.vars.data[g]? = some d ∧ d.mode ≠ .sample := by
        by_contra hc
        refine hs (fun m hm g d k1 k2 => ?_)
        simp only [List.mem_singleton] at hm
        subst hm
        by_contra hm
        exact hc ⟨g, d, k1, k2, hm⟩
      rw [St.solverFromUserLits]
      unfold St.solverFromUser
      rw [St.globalFromUser_panic h.v k1 k2 k3]; rfl

/-- The call does not panic. -/
def Legal (s : St α) : Op → Prop
  | .addClause c => s.sat = .unsat ∨ SampleOk s.vars c
  | .assume ls => SampleOk s.vars ls
  | .witnessVar u | .sampleVar u | .hideVar u =>
    ∀ (g : Nat) (d : VarData), s.vars.gfu.map u = some g → s.vars.data[g]? = some d → d.assumed = false
  | _ => True

theorem St.setUserMode_panic {e : Env α} (he : e.Ok) {a : Abs} {s : St α} (h : Inv a ids s) {u g : Nat} {d : VarData}
    (hu : s.vars.gfu.map u = some g) (hd : s.vars.data[g]? = some d) (ha : d.assumed = true) (m : Mode) :
    s.setUserMode e u m = .error .panic := by
  obtain ⟨t, g', ids', e1, e2, e3, e4, e5, e6⟩ := St.globalFromUser_ok he h.b h.n u false (by simp)
  have k1 := e2.more.gfu _ _ hu
  rw [e3] at k1
  obtain rfl := Option.some.inj k1
  obtain ⟨d0, q1, q2, _⟩ := h.b.v.ulive _ _ hu
  rw [hd] at q1
  obtain rfl := Option.some.inj q1
  have k2 := e2.more.data _ _ hd q2
  unfold St.setUserMode
  rw [e1, ok_bind]
  simp only
  unfold St.setMode St.data?
  rw [k2]
  simp only
  rw [if_neg (by rw [q2]; simp), if_pos ha]
  rfl

/-- What a call does: it panics only if it is not legal, gives up only in a search, or returns what
the specification allows and keeps the invariant. -/
theorem Inv.step {e : Env α} (he : e.Ok) {a : Abs} {s : St α} (h : Inv a ids s) (op : Op) :
    (s.step e op = .error .panic ∧ ¬ Legal s op) ∨ (s.step e op = .error .fuel ∧ ∃ n, op = .solve n) ∨
    ∃ s' r b ids', s.step e op = .ok (s', r) ∧ Abs.Step a op.call r b ∧ Inv b ids' s' ∧ Legal s op := by
  have modes : ∀ (u : Nat) (m : Mode),
      (s.setUserMode e u m = .error .panic ∧ ¬ ∀ (g : Nat) (d : VarData), s.vars.gfu.map u = some g → s.vars.data[g]? = some d → d.assumed = false) ∨
      ∃ s' ids', s.setUserMode e u m = .ok s' ∧
        Inv (if m = .hide then { a.ensure u with name := fun v => if v = u then none else (a.ensure u).name v } else a.ensure u) ids' s' ∧
        ∀ (g : Nat) (d : VarData), s.vars.gfu.map u = some g → s.vars.data[g]? = some d → d.assumed = false := by
    intro u m
    by_cases hl : ∀ (g : Nat) (d : VarData), s.vars.gfu.map u = some g → s.vars.data[g]? = some d → d.assumed = false
    · right
      obtain ⟨s', ids', e1, e2⟩ := h.setUserMode he u hl m
      exact ⟨s', ids', e1, e2, hl⟩
    · left
      refine ⟨?_, hl⟩
      obtain ⟨g, d, k1, k2, k3⟩ : ∃ (g : Nat) (d : VarData), s.vars.gfu.map u = some g ∧ s.vars.data[g]? = some d ∧ d.assumed = true := by
        by_contra hc
        refine hl (fun g d k1 k2 => ?_)
        by_contra hm
        exact hc ⟨g, d, k1, k2, by simpa using hm⟩
      exact St.setUserMode_panic he h k1 k2 k3 m
  cases op with
  | addClause c =>
    unfold St.step
    simp only
    by_cases hl : SampleOk s.vars c
    · rcases h.loadClause he c hl with ⟨h1, h2⟩ | ⟨s', ids', h1, h2⟩
      · right; right
        rw [h2, ok_bind]
        exact ⟨s, [], a, ids, rfl, .ignored a c (h.unsat h1).1, h, .inl h1⟩
      · right; right
        rw [h1, ok_bind]
        exact ⟨s', [], _, ids', rfl, .addClause a c, h2, .inr hl⟩
    · by_cases hs : s.sat = .unsat
      · right; right
        have : s.loadClause e c = .ok s := by unfold St.loadClause; rw [if_pos hs]
        rw [this, ok_bind]
        exact ⟨s, [], a, ids, rfl, .ignored a c (h.unsat hs).1, h, .inl hs⟩
      · left
        refine ⟨?_, by simp [Legal, hs, hl]⟩
        have h1 := h.setSat (t := if s.sat = .sat then .unknown else s.sat) (fe := false)
          (by by_cases hx : s.sat = .sat <;> simp [hx]) (by by_cases hx : s.sat = .sat <;> simp [hx])
          (by by_cases hx : s.sat = .sat <;> simp [hx])
        obtain ⟨h2, hz⟩ := h1.fullRestart
        unfold St.loadClause
        rw [if_neg hs]
        simp only
        rcases St.solverFromUserLits_sample he c h2.b h2.n with k | k
        · exact absurd k hl
        · rw [k]; rfl
  | newVar =>
    right; right
    obtain ⟨s', u, ids', h1, h2, h3, h4⟩ := h.newVar he
    unfold St.step
    simp only
    rw [h1, ok_bind]
    exact ⟨s', [u], _, ids', rfl, .newVar a u h3 h4, h2, trivial⟩
  | assume ls =>
    unfold St.step
    simp only
    by_cases hl : SampleOk s.vars ls
    · right; right
      obtain ⟨s', ids', h1, h2⟩ := h.assume he ls hl
      rw [h1, ok_bind]
      exact ⟨s', [], _, ids', rfl, .assume a ls, h2, hl⟩
    · left
      refine ⟨?_, hl⟩
      obtain ⟨h1, hz⟩ := h.fullRestart
      have h2 := h1.setSat (t := if s.fullRestart.sat = SatState.unsat then SatState.unsat else SatState.unknown) (fe := s.fullRestart.formulaEmpty)
        (by by_cases hx : s.fullRestart.sat = .unsat <;> simp [hx]) (by by_cases hx : s.fullRestart.sat = .unsat <;> simp [hx])
        (by by_cases hx : s.fullRestart.sat = .unsat <;> simp [hx])
      obtain ⟨t, ht⟩ : ∃ t : St α, t = { s.fullRestart with sat := if s.fullRestart.sat = SatState.unsat then SatState.unsat else SatState.unknown } := ⟨_, rfl⟩
      have htv : t.vars = s.vars := by rw [ht]; rfl
      have h2' : Inv a ids t := by rw [ht]; exact h2
      obtain ⟨D, e1, e2⟩ := St.updLoop_ok (f := fun d => { d with assumed := false }) t.asm.lits h2'.b.v h2'.asm.pres
        (fun d => ⟨rfl, rfl⟩) (fun d => rfl)
      have hD : DataLe t.vars D := DataLe.upd (f := fun d => { d with assumed := false })
        (P := fun k => ∃ l ∈ t.asm.lits, t.vars.gfs.map l.var = some k) (fun d => ⟨rfl, rfl, rfl, id⟩) e2
      have b3 := h2'.b.dataLe hD (by
        intro g d' k1 k2
        rw [e2 g] at k1
        split at k1
        · cases k3 : t.vars.data[g]? with
          | none => rw [k3] at k1; cases k1
          | some d => rw [k3] at k1; obtain rfl := Option.some.inj k1; rfl
        · exact h2'.b.hidA g d' k1 k2)
      rcases St.solverFromUserLits_sample he ls b3 (h2'.n.dataLe hD) with k | k
      · exfalso
        refine hl (fun l hl' g d k1 k2 => ?_)
        obtain ⟨d', k3, k4, k5, _⟩ := hD.none_ g d (by rw [htv]; exact k2)
        rw [← k5]
        refine k l hl' g d' ?_ k3
        show t.vars.gfu.map l.var = some g
        rw [htv]; exact k1
      · unfold St.assume
        simp only
        have hta : s.fullRestart.asm.lits = t.asm.lits := by rw [ht]
        rw [← ht, hta, St.setAssumed_eq, e1, ok_bind, k]
        rfl
  | solve n =>
    unfold St.step
    simp only
    rcases h.solve e n with h1 | ⟨s', b, h1, h2, h3, h4, _⟩
    · right; left
      rw [h1]; exact ⟨rfl, n, rfl⟩
    · right; right
      rw [h1, ok_bind]
      simp only
      refine ⟨s', _, a, ids, rfl, ?_, h2, trivial⟩
      cases b with
      | true =>
        simp only [if_true]
        obtain ⟨τ, k1, k2, _⟩ := (h2.b.sat (h4.1 rfl)).val
        exact .sat a ⟨τ, k1, k2⟩
      | false =>
        simp only [Bool.false_eq_true, if_false]
        refine .unsat a ?_
        cases hs : s'.sat with
        | unknown => exact absurd hs h3
        | sat => exact absurd (h4.2 hs) (by simp)
        | unsat =>
          intro τ hτ _
          exact (h2.unsat hs).1 τ hτ
        | unsatUnder => exact h2.under hs
  | witnessVar u =>
    unfold St.step
    simp only
    rcases modes u .witness with ⟨h1, h2⟩ | ⟨s', ids', h1, h2, h3⟩
    · left; rw [h1]; exact ⟨rfl, h2⟩
    · right; right
      rw [h1, ok_bind]
      exact ⟨s', [], _, ids', rfl, .witnessVar a u, h2, h3⟩
  | sampleVar u =>
    unfold St.step
    simp only
    rcases modes u .sample with ⟨h1, h2⟩ | ⟨s', ids', h1, h2, h3⟩
    · left; rw [h1]; exact ⟨rfl, h2⟩
    · right; right
      rw [h1, ok_bind]
      exact ⟨s', [], _, ids', rfl, .sampleVar a u, h2, h3⟩
  | hideVar u =>
    unfold St.step
    simp only
    rcases modes u .hide with ⟨h1, h2⟩ | ⟨s', ids', h1, h2, h3⟩
    · left; rw [h1]; exact ⟨rfl, h2⟩
    · right; right
      rw [h1, ok_bind]
      exact ⟨s', [], _, ids', rfl, .hideVar a u, h2, h3⟩
  | observe =>
    right; right
    unfold St.step
    simp only
    obtain ⟨s', us, b, h1, h2, h3⟩ := h.observe he
    rw [h1]
    exact ⟨s', us, b, ids, rfl, .observe a b us h3.nodup h3.new h3.some_ h3.other (fun u v i => Names.inj h2) h3.clauses
      h3.assumptions h3.next h3.len, h2, trivial⟩

/-- A new solver. -/
theorem Inv.new (e : Env α) : Inv {} (fun g => g) (St.new e) := by
  have hd : ∀ (g : Nat) (d : VarData), ¬ (St.new e).vars.data[g]? = some d := by
    intro g d h; simp [St.new] at h
  have hlive : ∀ g, ¬ (St.new e).vars.Live g := fun g ⟨d, h, _⟩ => hd g d h
  have hgfs : ∀ v, (St.new e).vars.gfs.map v = none := fun v => rfl
  have hpres : ∀ v, ¬ (St.new e).vars.pres v := by
    intro v h; simp [Vars.pres, hgfs] at h
  have hmem : ∀ l, ¬ l ∈ (St.new e).p.trail := by intro l h; simp [St.new] at h
  have htr : ∀ k l, ¬ (St.new e).p.At k l := by intro k l h; simp [Pt.At, St.new] at h
  have hval : ∀ v, (St.new e).p.value v = none := fun v => rfl
  have hdbl : ∀ c, ¬ (St.new e).db.Live c := by
    rintro c h; simp [St.new, Db.Live] at h
  have hbin : ∀ l m, ¬ m ∈ (St.new e).bins.byLit l := by intro l m h; simp [St.new] at h
  have hroot : ∀ l, ¬ (St.new e).p.Root l := by
    rintro l ⟨h, _⟩; simp [Pt.isTrue, Pt.litValue, hval] at h
  have hh : ∀ (C : Cl) σ, C.bin = (St.new e).bins.byLit → (∀ c, ¬ C.live c) → Holds C (St.new e).vars (St.new e).p σ := by
    intro C σ h1 h2
    exact ⟨⟨fun l m h => absurd (h1 ▸ h) (hbin l m), fun c h => absurd h (h2 c)⟩, fun l h => absurd h (hroot l),
      fun g d b h => absurd h (hd g d)⟩
  have hcore : Core [] (fun g => g) (St.new e).bins.byLit (St.new e).w (St.new e).db (St.new e).vars (St.new e).p := by
    refine ⟨⟨⟨?_, ?_, ?_, ?_, ?_, ?_, ?_, ?_, ?_⟩, ?_, ?_, ?_, ?_, ?_, ?_, ?_, ?_, ?_⟩, ?_,
      ⟨?_, ?_, ?_, ?_, ?_, ?_, ?_, ?_, by simp [St.new], by simp [St.new]⟩, ?_, ?_, ?_, ?_⟩
    · intro l h; exact absurd h (hmem l)
    · simp [St.new]
    · intro k l h; exact absurd h (htr k l)
    · intro k l h; exact absurd h (htr k l)
    · intro v h; exact absurd (hval v) h
    · simp [St.new]
    · simp [St.new]
    · simp [St.new]
    · simp [St.new]
    · intro c h; exact absurd h (hdbl c)
    · intro c h; exact absurd h (hdbl c)
    · intro c h; exact absurd h (hdbl c)
    · intro l m h; exact absurd h (hbin l m)
    · intro l m h; exact absurd h (hbin l m)
    · intro l m h; exact absurd h (hbin l m)
    · intro l h; exact absurd h (hmem l)
    · intro k l h; exact absurd h (htr k l)
    · intro k l h; exact absurd h (htr k l)
    · intro _
      refine ⟨fun c h => absurd h (hdbl c), ?_, ?_⟩
      · intro l y h; simp [St.new] at h
      · intro l; simp [St.new]
    · simp [St.new]
    · simp [St.new]
    · intro c h; exact absurd h (hdbl c)
    · intro t c h; simp [St.new] at h
    · intro t; simp [St.new]
    · intro c h; exact absurd h (hdbl c)
    · intro c h; exact absurd h (hdbl c)
    · simp [St.new]
    · intro τ _; exact hh _ _ rfl hdbl
    · intro σ _; exact ⟨fun _ => false, by simp [cnfSat], fun g h => absurd h (hlive g)⟩
    · intro v g d b h; rw [hgfs] at h; cases h
    · intro v g d h; rw [hgfs] at h; cases h
  refine ⟨⟨?_, ?_, fun v => rfl, .inl ⟨rfl, rfl⟩, fun g g' h => absurd h (hlive g), fun g d h => absurd h (hd g d),
    fun _ => ⟨hcore, fun l ⟨k, hk, _⟩ => absurd hk (by simp [St.new]), fun c h => absurd h (hdbl c)⟩, fun h => by cases h⟩, ?_, ?_, ?_, ?_, ?_⟩
  · refine ⟨?_, ?_, ?_, ?_, ?_, ?_, fun g d h => absurd h (hd g d), ?_, ?_, ?_⟩ <;> simp [St.new]
  · refine ⟨?_, rfl, ?_, fun v h => absurd h (hpres v)⟩
    · exact (Vsids.wf_init e.ar).1
    · intro v h; simp [Vsids.Avail, St.new, Vsids.new] at h
  · exact ⟨fun u => rfl, rfl, fun g h => absurd h (hlive g), (fun i h => by
      rcases h with ⟨c, hc, _⟩ | ⟨l, hl, _⟩
      · cases hc
      · cases hl), ⟨Nat.le_refl _, Nat.le_refl _, Nat.le_refl _⟩⟩
  · intro l h; simp [St.new] at h
  · intro _
    refine ⟨AsmDec.zero rfl _, fun τ _ => ?_, fun l hl => by cases hl⟩
    simp [St.new, allHold]
  · intro h; cases h
  · intro h; cases h

/-- Every history is allowed by the specification, and its state satisfies the invariant. -/
theorem Exec.inv {s : St α} {h : Hist} (x : Exec s h) : ∃ a ids, Abs.Run {} h a ∧ Inv a ids s := by
  induction x with
  | new e => exact ⟨{}, _, .nil _, Inv.new e⟩
  | @call s s' h op r e _ he hs ih =>
    obtain ⟨a, ids, h1, h2⟩ := ih
    rcases h2.step he op with ⟨k, _⟩ | ⟨k, _⟩ | ⟨s1, r1, b, ids', k1, k2, k3, _⟩
    · rw [k] at hs; cases hs
    · rw [k] at hs; cases hs
    · rw [k1] at hs
      cases hs
      exact ⟨b, ids', .snoc h1 k2, k3⟩

end Varisat.Solver
