import Verif.Proof.Solver.Find
/-!
# Backtracking and learning
-/
namespace Varisat.Solver

variable {α : Type} [LinearOrder α]
variable {F : List (List Lit)} {A : List Lit} {ids : Nat → Nat}

theorem St.backtrack_none {s : St α} {level : Nat} (h : s.p.curLevel ≤ level) : s.backtrack level = s := by
  unfold St.backtrack
  rw [Pt.backtrack_none h]
  rfl

theorem Core.lift_backtrack {bin : Lit → List Lit} {w : Wl} {db : Db α} {x : Vars} {p : Pt}
    (h : Core F ids bin w db x p) {level n : Nat} (hd : p.decisions[level]? = some n) (σ : Asg) :
    lift x (p.backtrack level).1 σ = lift x p σ := by
  refine lift_congr (h.absent_value ?_ ?_) σ
  · intro v h1 _
    rw [(Pt.backtrack_fields hd).2.2.2.2.2.1, if_neg]
    rintro ⟨l, hl, hv⟩
    exact h1 l (List.mem_of_mem_drop hl) hv
  · intro l hl; exact (h.c.backtrack hd).pres l hl

theorem L0.backtrack {p : Pt} (h : L0 p) {level n : Nat} (hd : p.decisions[level]? = some n) :
    L0 (p.backtrack level).1 := by
  obtain ⟨h1, h2, h3, _⟩ := Pt.backtrack_fields hd
  rcases h with ⟨h4, _⟩ | h4
  · rw [h4] at hd; simp at hd
  · cases level with
    | zero =>
      left
      rw [h4] at hd
      refine ⟨by rw [h3]; rfl, ?_⟩
      rw [h2]; exact (Option.some.inj hd).symm
    | succ k =>
      right
      rw [h3, List.getElem?_take, if_pos (by omega)]
      exact h4

theorem QInv.backtrack {q : Vsids α} {x : Vars} {p : Pt} (h : QInv q x p) (hlt : ∀ v, x.pres v → v < q.count)
    (hp : ∀ l ∈ p.trail, x.pres l.var) {level n : Nat} (hd : p.decisions[level]? = some n) :
    QInv ((p.backtrack level).2.foldl (fun v l => v.makeAvailable l.var) q) x (p.backtrack level).1 := by
  obtain ⟨_, _, _, _, _, h6, h7⟩ := Pt.backtrack_fields hd
  have hsub : ∀ l ∈ (p.backtrack level).2, x.pres l.var := by
    intro l hl; rw [h7] at hl; exact hp l (List.mem_of_mem_drop hl)
  obtain ⟨q1, q2, q3⟩ := Vsids.makeAvailable_foldl h.wf (p.backtrack level).2 (fun l hl => hlt _ (hsub l hl))
  refine ⟨q1, q2.trans h.count, ?_, ?_⟩
  · intro v hv
    rw [q3] at hv
    rcases hv with ⟨l, hl, rfl⟩ | hv
    · exact hsub l hl
    · exact h.pres v hv
  · intro v hv hn
    rw [q3]
    rw [h6] at hn
    by_cases hex : ∃ l ∈ p.trail.drop n, l.var = v
    · left; rw [h7]; exact hex
    · rw [if_neg hex] at hn
      exact .inr (h.all v hv hn)

theorem AsmDec.backtrack {p : Pt} (hp : p.Ok) {ls : List Lit} (h : AsmDec p ls) {level n : Nat}
    (hd : p.decisions[level]? = some n) : AsmDec (p.backtrack level).1 ls := by
  intro i hi l hl
  rw [Pt.backtrack_curLevel hd] at hi
  have hlev := (List.getElem?_eq_some_iff.1 hd).1
  obtain ⟨k, h1, h2⟩ := h i (by unfold Pt.curLevel; omega) l hl
  refine ⟨k, ?_, (Pt.backtrack_at hd).2 ⟨h2, ?_⟩⟩
  · rw [(Pt.backtrack_fields hd).2.2.1, List.getElem?_take, if_pos hi]; exact h1
  · have := List.pairwise_iff_getElem.1 hp.sorted i level (by omega) hlev hi
    rw [(List.getElem?_eq_some_iff.1 h1).2, (List.getElem?_eq_some_iff.1 hd).2] at this
    exact this

/-- `backtrack`. -/
theorem SInv.backtrack {s : St α} (h : SInv F A ids s) {level n : Nat} (hd : s.p.decisions[level]? = some n) :
    SInv F A ids (s.backtrack level) :=
  ⟨h.v, h.q.backtrack h.lt h.core.c.pres hd, h.fl, h.asm, h.core.backtrack hd, h.dec.backtrack h.core.c.tr hd, h.as⟩

theorem SInv.backtrack' {s : St α} (h : SInv F A ids s) (h2 : Prop2 s.bins.byLit s.db s.p) (hl : L0 s.p) (level : Nat) :
    SInv F A ids (s.backtrack level) ∧ Prop2 (s.backtrack level).bins.byLit (s.backtrack level).db (s.backtrack level).p ∧
    L0 (s.backtrack level).p := by
  cases hd : s.p.decisions[level]? with
  | none =>
    rw [St.backtrack_none (List.getElem?_eq_none_iff.1 hd)]
    exact ⟨h, h2, hl⟩
  | some n => exact ⟨h.backtrack hd, h2.backtrack h.core.c hd, hl.backtrack hd⟩

theorem Weak.backtrack {s : St α} (h : Weak s) (hd : s.p.decisions = []) (level : Nat) : s.backtrack level = s :=
  St.backtrack_none (by unfold Pt.curLevel; rw [hd]; exact Nat.zero_le _)

/-- Same clauses in the same places. -/
theorem DbSame.wok {bin : Lit → List Lit} {db db' : Db α} (h : DbSame db db') {w : Wl}
    (hw : w.enabled = true → WOk (cls bin db) w.watches) : w.enabled = true → WOk (cls bin db') w.watches :=
  fun he => Db.WOk.congr (hw he) h.lits h.live

/-- The state with a different assignment and queue. -/
theorem SInv.enq {s : St α} (h : SInv F A ids s) {m : Lit} {r : Reason} (hu : s.p.value m.var = none)
    (bins : Bins) (db : Db α) (w : Wl) (tmp : Nat → Bool)
    (hc : Core F ids bins.byLit w db s.vars (s.p.enqueue m r)) :
    SInv F A ids { s with
      bins := bins
      db := db
      w := w
      tmp := tmp
      p := s.p.enqueue m r } := by
  refine ⟨h.v, h.q.mono ?_, h.fl, h.asm, hc, h.dec.ext rfl (fun k l hk => Pt.at_enqueue.2 (.inl hk)), h.as⟩
  intro v _ hn
  by_cases hv : v = m.var
  · rw [hv]; exact hu
  · rw [← hn]; exact (Pt.enqueue_value_ne hv).symm

theorem L0.enqueue {p : Pt} (h : L0 p) (m : Lit) (r : Reason) : L0 (p.enqueue m r) := h

/-- Adding the learned clause and enqueuing its first literal. -/
theorem SInv.addLearned {s : St α} (h : SInv F A ids s) (h2 : Prop2 s.bins.byLit s.db s.p) (hl0 : L0 s.p) (e : Env α)
    {u : Lit} {rest : List Lit} (hu : s.p.value u.var = none)
    (hnd : ((u :: rest).map Lit.var).Nodup)
    (hpr : ∀ l ∈ u :: rest, s.vars.pres l.var ∧ s.p.Att l.var)
    (hus : ∀ l ∈ u :: rest, (cls s.bins.byLit s.db).Used l.var)
    (hat : ∀ l ∈ rest, ∃ k, s.p.At k l.neg)
    (hlv : ∀ l, rest.head? = some l → s.p.level l.var = s.p.curLevel)
    (hz : rest = [] ↔ s.p.curLevel = 0)
    (him : ∀ τ, cnfSat τ F → clauseSat (lift s.vars s.p (fun g => τ (ids g))) (u :: rest)) :
    ∃ s', s.addLearned e (u :: rest) = .ok s' ∧ SInv F A ids s' ∧ Prop2 s'.bins.byLit s'.db s'.p ∧ L0 s'.p ∧
      s' = { s with
        bins := s'.bins
        db := s'.db
        w := s'.w
        tmp := s'.tmp
        p := s'.p } := by
  have hiso : ∀ l ∈ u :: rest, ∀ g d, s.vars.gfs.map l.var = some g → s.vars.data[g]? = some d → d.isolated = false := by
    intro l hl g d h3 h4
    by_contra hne
    exact h.core.iso l.var g d h3 h4 (by simpa using hne) (hus l hl)
  have hun : ∀ m : Lit, s.p.value m.var = none → ∀ r, ¬ (s.p.enqueue u r).Done u.neg := by
    rintro m _ r ⟨k, _, hk⟩
    have h3 := (h.core.c.tr.enqueue (r := r) hu).at_true hk
    rw [Pt.isTrue_neg, Pt.isFalse_iff, Pt.enqueue_value_self] at h3
    simp at h3
  have hlevel : ∀ r (y : Lit), s.p.value y.var ≠ none → (s.p.enqueue u r).level y.var = s.p.level y.var :=
    fun r y hy => Pt.enqueue_level_of_assigned hu hy
  have hassigned : ∀ l ∈ rest, s.p.value l.var ≠ none := by
    intro l hl
    obtain ⟨k, hk⟩ := hat l hl
    have := h.core.c.tr.val _ hk.mem
    simp only [Lit.var_neg] at this
    rw [this]; simp
  match rest, hnd, hpr, hus, hat, hlv, hz, him, hiso, hassigned with
  | [], hnd, hpr, hus, hat, hlv, hz, him, hiso, _ =>
    refine ⟨_, rfl, h.enq hu s.bins s.db s.w s.tmp (h.core.enqueue hu (hpr u (by simp)).1 (hz.1 rfl) ?_ ?_),
      h2.enqueue h.core.c.tr hu, hl0.enqueue _ _, rfl⟩
    · intro τ hτ
      refine ⟨hτ, fun _ => ?_⟩
      have := him τ hτ
      rwa [clauseSat_singleton] at this
    · intro _ _ τ hτ _; exact hτ
  | [l1], hnd, hpr, hus, hat, hlv, hz, him, hiso, hassigned =>
    have hne0 : s.p.curLevel ≠ 0 := fun h0 => by have := hz.2 h0; simp at this
    have hb : ∀ l m, m ∈ (s.bins.add u l1).byLit l ↔ m ∈ s.bins.byLit l ∨ (l = u.neg ∧ m = l1) ∨ (l = l1.neg ∧ m = u) :=
      fun l m => Bins.mem_add
    have hc1 : Core F ids (s.bins.add u l1).byLit s.w s.db s.vars s.p := by
      refine h.core.addBin hb (by simpa using hnd) (hpr u (by simp)) (hpr l1 (by simp)) ?_ (fun τ hτ => ⟨hτ, him τ hτ⟩)
        (fun _ _ τ hτ _ => hτ)
      rintro l (rfl | rfl)
      · exact hiso _ (by simp)
      · exact hiso _ (by simp)
    refine ⟨_, rfl, h.enq hu (s.bins.add u l1) s.db s.w s.tmp (hc1.enqueue hu (hpr u (by simp)).1 ⟨hat l1 (by simp), ?_⟩
      (fun τ hτ => ⟨hτ, fun h0 => absurd h0 hne0⟩) (fun _ _ τ hτ _ => hτ)), ?_, hl0.enqueue _ _, rfl⟩
    · exact (hb _ _).2 (.inr (.inr ⟨rfl, rfl⟩))
    · refine (h2.enqueue h.core.c.tr hu (r := .binary l1)).addBin hb ?_ ?_
      · intro hd; exact absurd hd (hun u hu _)
      · intro _
        refine ⟨Pt.enqueue_isTrue_self, ?_⟩
        rw [hlevel _ l1 (hassigned l1 (by simp)), hlv l1 rfl, Pt.enqueue_level_self]
  | l1 :: l2 :: tl, hnd, hpr, hus, hat, hlv, hz, him, hiso, hassigned =>
    have hne0 : s.p.curLevel ≠ 0 := fun h0 => by have := hz.2 h0; simp at this
    obtain ⟨db', w', e1, e2, e3, e4, e5⟩ := h.core.addLong (F' := F) (hd := (assess e.car s.p s.tmp (u :: l1 :: l2 :: tl)).2)
      rfl rfl (fun ht => absurd ht (Db.selectTier_ne _)) (lits := u :: l1 :: l2 :: tl) (by simp) hnd hpr hiso
      (fun τ hτ => ⟨hτ, him τ hτ⟩) (fun _ _ τ hτ _ => hτ)
    have hnl : ¬ s.db.Live s.db.size := fun hl => absurd (h.core.dbi.lt _ hl.1) (by omega)
    refine ⟨{ s with
        db := db'
        w := w'
        tmp := (assess e.car s.p s.tmp (u :: l1 :: l2 :: tl)).1
        p := s.p.enqueue u (.long s.db.size) }, ?_,
      h.enq hu s.bins db' w' (assess e.car s.p s.tmp (u :: l1 :: l2 :: tl)).1
        (e2.enqueue hu (hpr u (by simp)).1 ⟨(e3 _).2 (.inr rfl), l1 :: l2 :: tl, by rw [e4, put_same], hat⟩
          (fun τ hτ => ⟨hτ, fun h0 => absurd h0 hne0⟩) (fun _ _ τ hτ _ => hτ)), ?_, hl0.enqueue _ _, rfl⟩
    · unfold St.addLearned
      simp only
      rw [e1]
    · refine (h2.enqueue h.core.c.tr hu (r := .long s.db.size)).addLong hnl e3 e4 ?_
      intro y hy hd
      simp only [List.take_succ_cons, List.take_zero, List.mem_cons, List.not_mem_nil, or_false] at hy
      rcases hy with rfl | rfl
      · exact absurd hd (hun y hu _)
      · refine ⟨u, by simp, Pt.enqueue_isTrue_self, ?_⟩
        rw [hlevel _ y (hassigned y (by simp)), hlv y rfl, Pt.enqueue_level_self]

/-- `conflict_step` after a conflict above level 0. -/
theorem SInv.learn {s : St α} (h : SInv F A ids s) (hl0 : L0 s.p) (e : Env α) {c : Conflict} (hcur : 0 < s.p.curLevel)
    (hc : CRes s.vars.pres (cls s.bins.byLit s.db) s.p c) :
    ∃ s', s.learn e c = .ok s' ∧ SInv F A ids s' ∧ Prop2 s'.bins.byLit s'.db s'.p ∧ L0 s'.p ∧ Frame s s' := by
  obtain ⟨L, e1, r⟩ := analyze_ok (e := e) h.core.c hc hcur h.fl h.q.wf (fuel := s.varCount + 1)
    (Nat.le_succ_of_le (h.core.c.tr.length_le (fun l hl => h.lt _ (h.core.c.pres l hl))))
  obtain ⟨u, rest, l1, ⟨ku, l2, l3⟩, l4, l5, l6, l7, l8⟩ := r.eq
  have hbt : L.backtrackTo < s.p.curLevel := by
    cases rest with
    | nil => rw [l8 rfl]; exact hcur
    | cons y ys => rw [← l7 y rfl]; obtain ⟨_, _, _, hy⟩ := l4 y (by simp); exact hy
  obtain ⟨n, hd⟩ : ∃ n, s.p.decisions[L.backtrackTo]? = some n := by
    rw [← Option.isSome_iff_exists, List.getElem?_eq_getElem hbt]; rfl
  -- the database after bumping
  obtain ⟨b1, b2⟩ := Db.bumpAll_same e.car s.p L.involved (s.db, s.cbump, s.tmp) h.core.dbi r.inv
  generalize hB : L.involved.foldl (fun b cref => bumpClause e.car s.p cref b) (s.db, s.cbump, s.tmp) = B at *
  obtain ⟨d1, d2⟩ := Db.decayActivities_same e.car b1 B.2.1
  generalize hD : B.1.decayActivities e.car B.2.1 = D at *
  have hsame : DbSame s.db D.1 := b2.trans d2
  have hcore : Core F ids s.bins.byLit s.w D.1 s.vars s.p := (hsame.map s.p).core h.core d1 (hsame.wok h.core.wok)
  have hs1 : SInv F A ids { s with
      db := D.1
      cbump := D.2
      tmp := B.2.2
      vflags := L.flags
      vsids := L.vsids } := by
    refine ⟨h.v, ⟨r.vs.wf, r.vs.count.trans h.q.count, ?_, ?_⟩, r.flags, h.asm, hcore, h.dec, h.as⟩
    · intro v hv; exact h.q.pres v ((r.vs.avail v).1 hv)
    · intro v hv hn; exact (r.vs.avail v).2 (h.q.all v hv hn)
  have hs2 := hs1.backtrack hd
  have hp2 : Prop2 s.bins.byLit D.1 (s.p.backtrack L.backtrackTo).1 := by
    obtain ⟨lit, _, _, hlc, hb, hw⟩ := hc.cur
    have hex : L.backtrackTo < s.p.level lit.var := by omega
    have : Prop2 s.bins.byLit s.db (s.p.backtrack L.backtrackTo).1 :=
      ⟨hb.backtrack h.core.c hd (fun l m he => by rw [he]; exact hex),
        hw.backtrack h.core.c hd (fun l m he => by rw [he]; exact hex)⟩
    exact (hsame.map _).prop2 this
  have hl2 := hl0.backtrack hd
  have hcl : ∀ l ∈ u :: rest, ∃ k, s.p.At k l.neg := by
    intro l hl
    rcases List.mem_cons.1 hl with rfl | hl
    · exact ⟨ku, l2⟩
    · obtain ⟨k, hk, _⟩ := l4 l hl; exact ⟨k, hk⟩
  have hprs : ∀ l ∈ u :: rest, s.vars.pres l.var := by
    intro l hl
    obtain ⟨k, hk⟩ := hcl l hl
    simpa using h.core.c.pres _ hk.mem
  have hatt : ∀ l ∈ u :: rest, s.p.Att l.var := by
    intro l hl
    obtain ⟨k, hk⟩ := hcl l hl
    exact fun _ => ⟨l.neg, hk.mem, by simp⟩
  have huv : (s.p.backtrack L.backtrackTo).1.value u.var = none := by
    have := Pt.backtrack_unassigned h.core.c.tr hd l2 (by simp only [Lit.var_neg]; omega)
    simpa using this
  obtain ⟨lg, hlg⟩ := St.emit_ok (s := St.backtrack { s with
      db := D.1
      cbump := D.2
      tmp := B.2.2
      vflags := L.flags
      vsids := L.vsids } L.backtrackTo)
    (x := .atClause (decide (L.clause.length > 2)) L.clause L.hashes) (by
      intro l hl
      have hl : l ∈ L.clause := hl
      rw [l1] at hl
      exact hprs l hl)
  suffices hH : ((u :: rest).map Lit.var).Nodup ∧
      (∀ l ∈ u :: rest, s.vars.pres l.var ∧ (s.p.backtrack L.backtrackTo).1.Att l.var) ∧
      (∀ l ∈ u :: rest, (cls s.bins.byLit D.1).Used l.var) ∧
      (∀ l ∈ rest, ∃ k, (s.p.backtrack L.backtrackTo).1.At k l.neg) ∧
      (∀ l, rest.head? = some l → (s.p.backtrack L.backtrackTo).1.level l.var = (s.p.backtrack L.backtrackTo).1.curLevel) ∧
      (rest = [] ↔ (s.p.backtrack L.backtrackTo).1.curLevel = 0) ∧
      (∀ τ, cnfSat τ F → clauseSat (lift s.vars (s.p.backtrack L.backtrackTo).1 (fun g => τ (ids g))) (u :: rest)) by
    obtain ⟨s', f1, f2, f3, f4, f5⟩ := (hs2.log lg).addLearned (u := u) (rest := rest) hp2 hl2 e huv
      hH.1 hH.2.1 hH.2.2.1 hH.2.2.2.1 hH.2.2.2.2.1 hH.2.2.2.2.2.1 hH.2.2.2.2.2.2
    refine ⟨s', ?_, f2, f3, f4, ?_⟩
    · unfold St.learn
      have e1' : analyze e s.p s.db.lits s.vflags s.vsids (s.varCount + 1) c = .ok L := e1
      rw [e1', ok_bind]
      simp only
      rw [hB, hD, hlg, ok_bind, l1]
      exact f1
    · have hcount : s'.vsids.count = s.vsids.count := by
        rw [f2.q.count, h.q.count, f5]; rfl
      refine ⟨?_, ?_, ?_, ?_, ?_, hcount⟩ <;> rw [f5]
      · exact VLess.refl _
      all_goals rfl
  refine ⟨?_, ?_, ?_, ?_, ?_, ?_, ?_⟩
  · rw [List.map_cons, List.nodup_cons]
    refine ⟨?_, l5⟩
    intro hm
    obtain ⟨y, hy, hyv⟩ := List.mem_map.1 hm
    obtain ⟨_, _, _, hlt⟩ := l4 y hy
    rw [hyv, l3] at hlt
    omega
  · intro l hl
    exact ⟨hprs l hl, (hatt l hl).backtrack hd⟩
  · intro l hl
    have := r.used l (by rw [l1]; exact hl)
    rcases this with ⟨d, hdl, m, hm, hmv⟩ | hb
    · refine .inl ⟨d, (hsame.live d).2 hdl, m, ?_, hmv⟩
      show m ∈ D.1.lits d
      rw [hsame.lits]; exact hm
    · exact .inr hb
  · intro l hl
    obtain ⟨k, hk, _⟩ := l4 l hl
    refine ⟨k, (Pt.backtrack_at hd).2 ⟨hk, ?_⟩⟩
    have := l6 l hl
    have h3 := h.core.c.tr.level k _ hk
    simp only [Lit.var_neg] at h3
    rw [h3, lvl_le_iff h.core.c.tr.sorted hd] at this
    exact this
  · intro l hl
    show (s.p.backtrack L.backtrackTo).1.level l.var = (s.p.backtrack L.backtrackTo).1.curLevel
    rw [Pt.backtrack_level hd, Pt.backtrack_curLevel hd]
    exact l7 l hl
  · show rest = [] ↔ (s.p.backtrack L.backtrackTo).1.curLevel = 0
    rw [Pt.backtrack_curLevel hd]
    refine ⟨l8, fun h0 => ?_⟩
    cases rest with
    | nil => rfl
    | cons y ys =>
      have h3 := l7 y rfl
      obtain ⟨_, _, h4, _⟩ := l4 y (by simp)
      omega
  · intro τ hτ
    show clauseSat (lift s.vars (s.p.backtrack L.backtrackTo).1 _) _
    rw [h.core.lift_backtrack hd, ← l1]
    exact r.implied _ (h.core.s1 τ hτ).mod

end Varisat.Solver
