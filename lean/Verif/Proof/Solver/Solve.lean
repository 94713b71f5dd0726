import Verif.Proof.Solver.Learn
/-!
# The search
-/
namespace Varisat.Solver

variable {α : Type} [LinearOrder α]
variable {F : List (List Lit)} {A : List Lit} {ids : Nat → Nat}

/-- The variable `i` occurs in the formula or in the assumptions. -/
def Occurs (F : List (List Lit)) (A : List Lit) (i : Nat) : Prop :=
  (∃ c ∈ F, ∃ l ∈ c, l.var = i) ∨ ∃ l ∈ A, l.var = i

/-- The stored model belongs to a satisfying assignment. -/
structure SatOk (F : List (List Lit)) (A : List Lit) (ids : Nat → Nat) (x : Vars) (model : List (Option Bool)) : Prop where
  val : ∃ τ, cnfSat τ F ∧ allHold τ A ∧ ∀ g b, x.Live g → model[g]? = some (some b) → τ (ids g) = b
  all : ∀ g, x.Live g → Occurs F A (ids g) → ∃ b, model[g]? = some (some b)

/-- Another clause database. -/
theorem SInv.mapDb {s : St α} (h : SInv F A ids s) {db : Db α} {p : Pt} {w : Wl} {f : Nat → Nat}
    (m : DbMap s.db db s.p p f) (hdb : DbInv db) (hw : w.enabled = true → WOk (cls s.bins.byLit db) w.watches) :
    SInv F A ids { s with
      db := db
      p := p
      w := w } := by
  refine ⟨h.v, h.q.mono (fun v _ hv => by rw [← m.node.value]; exact hv), h.fl, h.asm, m.core h.core hdb hw, ?_, h.as⟩
  exact h.dec.ext m.node.decisions (fun k l hk => m.node.at_.2 hk)

theorem L0.node {p q : Pt} (h : L0 p) (m : Db.NodeSame p q) : L0 q := by
  unfold L0; rw [m.decisions, m.qhead]; exact h

/-- The state of a search between conflicts. -/
structure RInv (F : List (List Lit)) (A : List Lit) (ids : Nat → Nat) (s : St α) : Prop where
  i : SInv F A ids s
  p2 : Prop2 s.bins.byLit s.db s.p
  l0 : L0 s.p

/-- `reduce_locals`. -/
theorem RInv.reduceLocals {s : St α} (h : RInv F A ids s) :
    ∃ s', s.reduceLocals = .ok s' ∧ RInv F A ids s' ∧ Frame s s' := by
  obtain ⟨db', w', dels, e1, r⟩ := Db.reduceLocals_ok h.i.core.dbi (fun c hc hn => by
    have : 3 ≤ (s.db.lits c).length := h.i.core.c.len c hc
    rw [hn] at this; simp at this) s.p s.w
  unfold St.reduceLocals
  rw [e1]
  simp only
  obtain ⟨L, hL⟩ := St.emitAll_ok (xs := dels.map (fun c => .deleteClause (s.db.lits c) .redundant))
    (s := { s with
      db := db'
      w := w' }) (by
      intro x hx l hl
      obtain ⟨c, hc, rfl⟩ := List.mem_map.1 hx
      exact (h.i.core.c.vars c (r.only c hc).1 l hl).1)
  have m := r.map h.i.core.c.tr
  refine ⟨_, hL, ⟨(h.i.mapDb m r.inv (w := w') ?_).log L, m.prop2 h.p2, h.l0⟩, ⟨VLess.refl _, rfl, rfl, rfl, rfl, rfl⟩⟩
  rw [r.w]
  by_cases hd : dels = []
  · rw [if_pos hd]
    intro he
    refine Db.WOk.congr (h.i.core.wok he) r.lits (fun c => ?_)
    show db'.Live c ↔ s.db.Live c
    rw [r.live c, hd]; simp
  · rw [if_neg hd]; intro he; cases he

/-- `reduce_mids`. -/
theorem RInv.reduceMids {s : St α} (h : RInv F A ids s) :
    RInv F A ids { s with db := s.db.reduceMids } := by
  obtain ⟨r1, r2, _⟩ := Db.reduceMids_ok h.i.core.dbi
  have m := r2.map s.p
  exact ⟨h.i.mapDb m r1 (r2.wok h.i.core.wok), m.prop2 h.p2, h.l0⟩

/-- `collect_garbage`. -/
theorem RInv.collect {s : St α} (h : RInv F A ids s) :
    ∃ db p w, s.db.collect s.p s.w = some (db, p, w) ∧ RInv F A ids { s with
      db := db
      p := p
      w := w } := by
  unfold Db.collect
  split
  · obtain ⟨db', p', g, e1, r⟩ := Db.collectNow_ok h.i.core.dbi h.i.core.c.tr s.w h.i.core.c.len (by
      intro l hl c hr
      obtain ⟨k, hk⟩ := List.getElem?_of_mem hl
      have := h.i.core.c.rs k l hk
      unfold ReasonAt at this
      rw [hr] at this
      obtain ⟨h1, rest, h2, _⟩ := this
      exact ⟨h1, rest, h2⟩)
    refine ⟨db', p', _, e1, h.i.mapDb r.map r.inv ?_, r.map.prop2 h.p2, h.l0.node r.map.node⟩
    intro he; cases he
  · exact ⟨_, _, _, rfl, h⟩

/-- Satisfying assignments found by the search. -/
theorem SInv.model {s : St α} (h : SInv F A ids s) (h2 : Prop2 s.bins.byLit s.db s.p) (hq : s.p.qhead = s.p.trail.length)
    (hall : ∀ v, s.vars.pres v → s.p.value v ≠ none) (hlen : s.asm.lits.length ≤ s.p.curLevel) :
    ∃ τ, cnfSat τ F ∧ allHold τ A ∧ ∀ g, s.vars.Live g → τ (ids g) =
      match s.vars.sfg.map g with
      | some v => (s.p.value v).getD false
      | none => ((s.vars.data[g]?).bind (·.unit)).getD false := by
  obtain ⟨c1, c2⟩ := h.core.c.complete h2.b h2.w hq
  obtain ⟨σ, hσ⟩ : ∃ σ : Asg, σ = fun g =>
      match s.vars.sfg.map g with
      | some v => (s.p.value v).getD false
      | none => ((s.vars.data[g]?).bind (·.unit)).getD false := ⟨_, rfl⟩
  have hlift : lift s.vars s.p σ = fun v => (s.p.value v).getD false := by
    funext v
    unfold lift
    cases hv : s.vars.gfs.map v with
    | none => rfl
    | some g =>
      simp only
      rw [hσ]
      simp only
      rw [(h.v.gs g v).2 hv]
  have htrue : ∀ l, s.p.isTrue l = true → l.holds (lift s.vars s.p σ) := by
    intro l hl
    rw [hlift]
    unfold Lit.holds
    simp only
    rw [Pt.isTrue_iff.1 hl]
    rfl
  have hfalse : ∀ l : Lit, s.vars.pres l.var → l.holds (lift s.vars s.p σ) → s.p.isTrue l = true := by
    intro l hp hl
    rw [hlift] at hl
    unfold Lit.holds at hl
    simp only at hl
    obtain ⟨b, hb⟩ := Option.ne_none_iff_exists'.1 (hall l.var hp)
    rw [hb] at hl
    rw [Pt.isTrue_iff, hb]
    exact congrArg some hl
  have hH : Holds (irrs s.bins.byLit s.db) s.vars s.p σ := by
    refine ⟨irrs_sat ⟨?_, ?_⟩, fun l hl => htrue l hl.1, ?_⟩
    · intro l m hm hl
      exact htrue m (c1 l m hm (hfalse l (by
        have := (h.core.c.binVars _ _ (h.core.c.binSym l m hm)).1
        simpa using this) hl))
    · intro c hc
      rcases c2 c hc with ⟨l, hl, ht⟩ | ⟨l, m, hl, hm, hne, hv, _⟩
      · exact ⟨l, hl, htrue l ht⟩
      · exact absurd hv (hall _ (h.core.c.vars c hc l hl).1)
    · intro g d b h1 h3 h4
      rw [hσ]
      simp only
      cases hv : s.vars.sfg.map g with
      | none => simp [h1, h4]
      | some v =>
        have hr := h.core.unit v g d b ((h.v.gs g v).1 hv) h1 h4
        have := Pt.isTrue_iff.1 hr.1
        simp only [Lit.var_mk', Lit.isNeg_mk', Bool.not_not] at this
        simp [this]
  obtain ⟨τ, h3, h4⟩ := h.core.s2 σ hH
  refine ⟨τ, h3, (h.as.iff τ h3).1 ?_, fun g hg => by rw [h4 g hg, hσ]⟩
  intro l hl
  obtain ⟨i, hi⟩ := List.getElem?_of_mem hl
  have hil := (List.getElem?_eq_some_iff.1 hi).1
  obtain ⟨n, _, hn⟩ := h.dec i (by omega) l hi
  have ht := h.core.c.tr.at_true hn
  obtain ⟨g, hg⟩ := Option.isSome_iff_exists.1 (h.asm.pres l hl)
  refine ⟨g, hg, ?_⟩
  rw [h4 g (h.v.slive _ _ hg)]
  have := htrue l ht
  unfold Lit.holds at this
  rw [lift_pres hg] at this
  exact this

/-- `reconstruct_global_model`. -/
theorem SInv.satOk {s : St α} (h : SInv F A ids s) (h2 : Prop2 s.bins.byLit s.db s.p) (hq : s.p.qhead = s.p.trail.length)
    (hall : ∀ v, s.vars.pres v → s.p.value v ≠ none) (hlen : s.asm.lits.length ≤ s.p.curLevel) :
    SatOk F A ids s.vars s.reconstruct.model ∧ ∀ g, s.vars.Live g → ∃ b, s.reconstruct.model[g]? = some (some b) := by
  obtain ⟨τ, h3, h4, h5⟩ := h.model h2 hq hall hlen
  have hm : s.reconstruct.model = s.vars.data.mapIdx s.modelValue := rfl
  have hval : ∀ g, s.vars.Live g → s.reconstruct.model[g]? = some (some (τ (ids g))) := by
    rintro g ⟨d, hd, hdel⟩
    rw [hm, List.getElem?_mapIdx, hd, h5 g ⟨d, hd, hdel⟩]
    simp only [Option.map_some]
    unfold St.modelValue
    rw [hdel]
    simp only [Bool.false_eq_true, if_false]
    cases hv : s.vars.sfg.map g with
    | none => simp [hd]
    | some v =>
      simp only
      obtain ⟨b, hb⟩ := Option.ne_none_iff_exists'.1 (hall v (by simp [Vars.pres, (h.v.gs g v).1 hv]))
      rw [hb]; rfl
  refine ⟨⟨⟨τ, h3, h4, fun g b hg hb => ?_⟩, fun g hg _ => ⟨_, hval g hg⟩⟩, fun g hg => ⟨_, hval g hg⟩⟩
  rw [hval g hg] at hb
  simpa using hb

/-- What a step of the search leaves. -/
structure After (F : List (List Lit)) (A : List Lit) (ids : Nat → Nat) (s : St α) : Prop where
  w : Weak s
  run : s.sat ≠ .unsat → SInv F A ids s ∧ Prop2 s.bins.byLit s.db s.p
  unsat : s.sat = .unsat → Unsat F ∧ s.p.decisions = []
  under : s.sat = .unsatUnder → UnsatUnder F A
  sat : s.sat = .sat → SatOk F A ids s.vars s.model ∧ ∀ g, s.vars.Live g → ∃ b, s.model[g]? = some (some b)

/-- What a step of the search keeps. -/
structure Keep (s s' : St α) : Prop where
  vars : VLess s.vars s'.vars
  formulaEmpty : s'.formulaEmpty = s.formulaEmpty

theorem Keep.trans {a b c : St α} (h : Keep a b) (k : Keep b c) : Keep a c :=
  ⟨h.vars.trans k.vars, k.formulaEmpty.trans h.formulaEmpty⟩
theorem Frame.keep {a b : St α} (h : Frame a b) : Keep a b := ⟨h.vars, h.formulaEmpty⟩

/-- `conflict_step`. -/
theorem RInv.conflictStep {s : St α} (h : RInv F A ids s) (hs : s.sat = .unknown) (e : Env α) :
    ∃ s', s.conflictStep e = .ok s' ∧ After F A ids s' ∧ Keep s s' := by
  obtain ⟨t, o, e1, fr, ok⟩ := h.i.findConflict h.p2 h.l0
  unfold St.conflictStep
  rw [e1, ok_bind]
  simp only
  have hts : t.sat = .unknown := fr.sat.trans hs
  cases o with
  | none =>
    obtain ⟨o1, o2, o3, o4, o5, o6⟩ := ok
    refine ⟨_, rfl, ⟨⟨o1.v, o1.q, o1.fl, o1.asm, o3⟩, (fun _ => ⟨⟨o1.v, o1.q, o1.fl, o1.asm, o1.core, o1.dec, o1.as⟩, o2⟩),
      (fun h => by cases h), (fun h => by cases h), (fun _ => o1.satOk o2 o4 o5 o6)⟩, ⟨fr.vars, fr.formulaEmpty⟩⟩
  | assumption =>
    obtain ⟨o1, o2, o3, o4⟩ := ok
    exact ⟨_, rfl, ⟨⟨o1.v, o1.q, o1.fl, o1.asm, o3⟩, fun _ => ⟨⟨o1.v, o1.q, o1.fl, o1.asm, o1.core, o1.dec, o1.as⟩, o2⟩,
      (fun h => by cases h), (fun _ => o4), (fun h => by cases h)⟩, ⟨fr.vars, fr.formulaEmpty⟩⟩
  | conflict c =>
    simp only
    rcases ok with ⟨o1, o2, o3⟩ | ⟨o1, o2, o3, o4⟩
    · unfold St.learn
      have han : analyze e t.p t.db.lits t.vflags t.vsids (t.varCount + 1) c =
          .ok { clause := [], backtrackTo := 0, involved := [], hashes := [clauseHash (c.lits t.db.lits)], flags := t.vflags, vsids := t.vsids } := by
        unfold analyze
        simp only
        rw [if_pos (by unfold Pt.curLevel; rw [o1]; rfl)]
      rw [han, ok_bind]
      simp only [List.foldl_nil, List.length_nil]
      rw [St.backtrack_none (by
        show t.p.curLevel ≤ 0
        unfold Pt.curLevel; rw [o1]; exact Nat.le_refl _)]
      obtain ⟨L, hL⟩ := St.emit_ok (s := { t with
          db := (t.db.decayActivities e.car t.cbump).1
          cbump := (t.db.decayActivities e.car t.cbump).2
          tmp := t.tmp
          vflags := t.vflags
          vsids := t.vsids }) (x := .atClause (decide (0 > 2)) [] [clauseHash (c.lits t.db.lits)])
        (by intro l hl; cases hl)
      rw [hL, ok_bind]
      refine ⟨_, rfl, ⟨⟨o3.v, o3.q, o3.fl, o3.asm, o3.l0⟩, (fun h => absurd rfl h), (fun _ => ⟨o2, o1⟩), (fun h => by cases h),
        (fun h => by cases h)⟩, ⟨fr.vars, fr.formulaEmpty⟩⟩
    · obtain ⟨s', e2, e3, e4, e5, e6⟩ := o2.learn o3 e o1 o4
      have : s'.sat = .unknown := e6.sat.trans hts
      refine ⟨s', e2, ⟨e3.weak e5, (fun _ => ⟨e3, e4⟩), ?_, ?_, ?_⟩, (fr.trans e6).keep⟩ <;>
        (intro h; rw [this] at h; cases h)

/-- `schedule_step`. -/
theorem After.scheduleStep {s : St α} (h : After F A ids s) (e : Env α) :
    ∃ s' b, s.scheduleStep e = .ok (s', b) ∧ After F A ids s' ∧ Keep s s' ∧ (b = false → s' = s ∧ s.sat ≠ .unknown) := by
  unfold St.scheduleStep
  by_cases hs : s.sat ≠ .unknown
  · rw [if_pos hs]
    exact ⟨s, false, rfl, h, ⟨VLess.refl _, rfl⟩, fun _ => ⟨rfl, hs⟩⟩
  rw [if_neg hs]
  rw [ne_eq, not_not] at hs
  obtain ⟨k1, k2⟩ := h.run (by rw [hs]; simp)
  have r0 : RInv F A ids s := ⟨k1, k2, h.w.l0⟩
  have r1 : RInv F A ids (s.restartStep e) ∧ Keep s (s.restartStep e) ∧ (s.restartStep e).sat = s.sat := by
    unfold St.restartStep
    by_cases hr : s.sched.nextRestart = s.sched.conflicts
    · rw [if_pos hr]
      obtain ⟨a, b, c⟩ := k1.backtrack' k2 h.w.l0 s.asm.levels
      exact ⟨⟨⟨a.v, a.q, a.fl, a.asm, a.core, a.dec, a.as⟩, b, c⟩, ⟨VLess.refl _, rfl⟩, rfl⟩
    · rw [if_neg hr]; exact ⟨r0, ⟨VLess.refl _, rfl⟩, rfl⟩
  have r3 : ∀ t : St α, RInv F A ids t → Keep s t → t.sat = .unknown → ∃ s' b, t.searchStep e = .ok (s', b) ∧
      After F A ids s' ∧ Keep s s' ∧ (b = false → s' = s ∧ s.sat ≠ .unknown) := by
    intro t ht hk hts
    obtain ⟨db, p, w, e1, e2⟩ := ht.collect
    unfold St.searchStep
    rw [e1]
    simp only
    obtain ⟨s', e3, e4, e5⟩ := e2.conflictStep (e := e) hts
    rw [e3, ok_bind]
    refine ⟨_, true, rfl, ⟨⟨e4.w.v, e4.w.q, e4.w.fl, e4.w.asm, e4.w.l0⟩, ?_, e4.unsat, e4.under, e4.sat⟩,
      hk.trans ⟨e5.vars, e5.formulaEmpty⟩, by simp⟩
    intro hu
    obtain ⟨f1, f2⟩ := e4.run hu
    exact ⟨⟨f1.v, f1.q, f1.fl, f1.asm, f1.core, f1.dec, f1.as⟩, f2⟩
  have r2 : ∀ t : St α, RInv F A ids t → Keep s t → t.sat = .unknown → ∃ s' b, (t.midsStep e).searchStep e = .ok (s', b) ∧
      After F A ids s' ∧ Keep s s' ∧ (b = false → s' = s ∧ s.sat ≠ .unknown) := by
    intro t ht hk hts
    unfold St.midsStep
    by_cases hm : t.sched.conflicts % e.reduceMids = 0
    · rw [if_pos hm]
      exact r3 _ ht.reduceMids ⟨hk.vars, hk.formulaEmpty⟩ hts
    · rw [if_neg hm]
      exact r3 _ ht hk hts
  obtain ⟨t1, t2, t3⟩ := r1
  simp only
  by_cases hl : (s.restartStep e).sched.conflicts % e.reduceLocals = 0
  · rw [if_pos hl]
    obtain ⟨u, e1, e2, e3⟩ := t1.reduceLocals
    rw [e1, ok_bind]
    exact r2 u e2 (t2.trans e3.keep) (e3.sat.trans (t3.trans hs))
  · rw [if_neg hl]
    exact r2 _ t1 t2 (t3.trans hs)

/-- The loop of `solve`. -/
theorem After.solveLoop (e : Env α) : ∀ (n : Nat) {s : St α}, After F A ids s →
    St.solveLoop e n s = .error .fuel ∨
    ∃ s', St.solveLoop e n s = .ok s' ∧ After F A ids s' ∧ Keep s s' ∧ s'.sat ≠ .unknown
  | 0, _, _ => .inl rfl
  | n + 1, s, h => by
    rw [St.solveLoop]
    obtain ⟨s', b, e1, e2, e3, e4⟩ := h.scheduleStep e
    rw [e1, ok_bind]
    cases b with
    | false =>
      right
      obtain ⟨rfl, h2⟩ := e4 rfl
      exact ⟨s', rfl, e2, e3, h2⟩
    | true =>
      simp only [if_true]
      rcases After.solveLoop e n e2 with h1 | ⟨t, h1, h2, h3, h4⟩
      · exact .inl h1
      · exact .inr ⟨t, h1, h2, e3.trans h3, h4⟩

end Varisat.Solver
