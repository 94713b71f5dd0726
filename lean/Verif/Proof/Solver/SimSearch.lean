import Verif.Proof.Solver.SimSimp
import Verif.Proof.Solver.FailedCore
/-!
# The steps of a search, as the checker sees them
-/
namespace Varisat.Solver

open Api (Abs)
open Checker (View LitsOk SamplingMode hashOf)

variable {α : Type} [LinearOrder α]
variable {a : Option Abs} {x : Vars} {p q : Pt} {st : Bool → List Lit → Nat} {V : View} {l m : Lit} {s s' : St α} {e : Env α}
variable {F : List (List Lit)} {A : List Lit} {ids : Nat → Nat} {bin : Lit → List Lit} {db : Db α}

/-- A change of the state that the checker does not see. -/
theorem Sim.change {t : St α} (h : Sim a s V) (hv : VInv s.vars) (h1 : t.vars = s.vars)
    (h3 : ∀ r k, stored t.bins.byLit t.db r k = stored s.bins.byLit s.db r k) (h4 : InUse s.vars t.bins.byLit t.db)
    (h5 : ∀ l ∈ t.asm.lits, l ∈ s.asm.lits) (h6 : s.sat = .unsat ↔ t.sat = .unsat)
    (h8 : ∀ l, s.vars.pres l.var → (Known t.p l ↔ Known s.p l)) : Sim a t V := by
  refine ⟨?_, by rw [h1]; exact h4, h.unsat.trans h6, ?_⟩
  · rw [h1]
    exact (h.b.point h8 hv).congr fun r k _ _ => h3 r k
  · rw [h1]; exact fun l hl => h.asm l (h5 l hl)

theorem stored_le_iter {db db' : Db α} (hn : db.clauses.Nodup) (hn' : db'.clauses.Nodup) (h : ∀ c, db'.Live c ↔ db.Live c) :
    db'.iter.Perm db.iter :=
  (List.perm_ext_iff_of_nodup (iter_nodup hn') (iter_nodup hn)).2 fun c => by
    rw [Db.mem_iter, Db.mem_iter]; exact h c

/-- Same clauses in the same places. -/
theorem Tracked.dbSame (h : Tracked a s) {t : St α} (hn : s.db.clauses.Nodup) (hn' : t.db.clauses.Nodup) (hs : DbSame s.db t.db)
    (h1 : t.vars = s.vars) (h2 : t.log = s.log) (h3 : t.bins = s.bins) (h5 : t.asm.lits = s.asm.lits)
    (h6 : s.sat = .unsat ↔ t.sat = .unsat) (h7 : t.p = s.p) : Tracked a t := by
  obtain ⟨V, k1, k2⟩ := h.view
  refine ⟨by rw [h1]; exact h.v, by rw [h7]; exact h.r, V, by rw [h2]; exact k1, ?_⟩
  refine k2.change h.v h1 ?_ ?_ (fun l hl => by rw [← h5]; exact hl) h6 (fun l _ => by rw [h7])
  · rw [h3]
    refine stored_congr (stored_le_iter hn hn' hs.live) fun c hc => ⟨hs.irr c (Db.mem_iter.1 hc), by rw [hs.lits]⟩
  · rw [h3]
    refine k2.use.congr (fun c hc => Db.mem_iter.2 ((hs.live c).1 (Db.mem_iter.1 hc))) fun c _ => by rw [hs.lits]

/-! ### Restarts, reductions and garbage collection -/

theorem Tracked.restartStep (h : Tracked a s) (hp : s.p.Ok) : Tracked a (s.restartStep e) := by
  unfold St.restartStep
  split
  · have k : Tracked a (s.backtrack s.asm.levels) := h.backtrack fun _ _ => hp
    exact k.change rfl rfl rfl rfl rfl Iff.rfl k.r fun _ => Iff.rfl
  · exact h

/-- Deleting redundant clauses one after the other. -/
theorem SimB.delsRed (hv : VInv x) : ∀ (cs : List (List Lit)) {st : Bool → List Lit → Nat} {V : View} {log : List ProofStep},
    SimB a x p st V → (∀ c ∈ cs, Ordin x c ∧ 2 ≤ c.length) →
    (∀ k, Ordin x k → cs.countP (fun c => decide (c.Perm k)) ≤ st true k) → Seen log V →
    ∃ V', Seen (log ++ cs.map (fun c => gstep x (.deleteClause c .redundant))) V' ∧
      SimB a x p (fun r k => st r k - if r = true then cs.countP (fun c => decide (c.Perm k)) else 0) V' ∧
      V'.unsat = V.unsat ∧ V'.asm = V.asm
  | [], st, V, log, hb, _, _, hl => ⟨V, by simpa using hl, by simpa using hb, rfl, rfl⟩
  | c :: cs, st, V, log, hb, hc, hk, hl => by
    obtain ⟨h1, h2⟩ := hc c (by simp)
    have hpos : 0 < st true c := by
      have := hk c h1
      rw [List.countP_cons, if_pos (by simp)] at this
      omega
    have b1 := hb.del hv h1 .redundant
    rw [show decide (DeleteProof.redundant = DeleteProof.redundant) = true from rfl] at b1
    have hl1 := hl.snoc (hb.acc_redundant hv h1 h2 hpos) (hb.v.ordin hv h1)
    obtain ⟨V', e1, e2, e3, e4⟩ := SimB.delsRed hv cs b1 (fun d hd => hc d (by simp [hd])) (by
      intro k hko
      have := hk k hko
      rw [List.countP_cons] at this
      unfold less
      by_cases hp : c.Perm k
      · simp only [hp, decide_true, if_true] at this
        simp only [hp, true_and, if_true]
        omega
      · simp only [hp, decide_false, Bool.false_eq_true, if_false] at this
        simp only [hp, false_and, if_false]
        omega) hl1
    refine ⟨V', ?_, e2.congr fun r k _ _ => ?_, e3, e4⟩
    · rw [List.map_cons]
      rw [List.append_assoc] at e1
      exact e1
    · rw [List.countP_cons]
      unfold less
      by_cases hp : c.Perm k
      · cases r <;> simp only [hp, true_and, decide_true, if_true, reduceCtorEq, if_false, Bool.false_eq_true] <;> omega
      · cases r <;> simp only [hp, false_and, decide_false, if_true, reduceCtorEq, if_false, Nat.sub_zero, Nat.add_zero, Bool.false_eq_true]

theorem Tracked.reduceLocals (h : Tracked a s) (hi : SInv F A ids s) (ho : s.reduceLocals = .ok s') : Tracked a s' := by
  obtain ⟨V, k1, k2⟩ := h.view
  have hv := h.v
  unfold St.reduceLocals at ho
  obtain ⟨db', w', dels, e1, r⟩ := Db.reduceLocals_ok hi.core.dbi (fun c hc hz => by
    have := hi.core.c.len c hc
    have hz' : (cls s.bins.byLit s.db).lits c = [] := hz
    rw [hz'] at this; simp at this) s.p s.w
  rw [e1] at ho
  simp only at ho
  have hlong : ∀ c ∈ dels, Ordin s.vars (s.db.lits c) ∧ 3 ≤ (s.db.lits c).length := fun c hc =>
    k2.use.long c (Db.mem_iter.2 (r.only c hc).1)
  rw [emitAll_glit _ (by
    intro y hy l hl
    obtain ⟨c, hc, rfl⟩ := List.mem_map.1 hy
    exact (hlong c hc).1.pres l hl)] at ho
  cases ho
  -- the store is what was kept and what was deleted
  have hperm : s.db.iter.Perm (dels ++ db'.iter) := by
    refine (List.perm_ext_iff_of_nodup (iter_nodup hi.core.dbi.nodup) ?_).2 fun c => ?_
    · rw [List.nodup_append]
      refine ⟨r.nodup, iter_nodup r.inv.nodup, ?_⟩
      rintro c hc d hd rfl
      exact ((r.live c).1 (Db.mem_iter.1 hd)).2 hc
    · rw [List.mem_append, Db.mem_iter, Db.mem_iter, r.live c]
      constructor
      · intro hc
        by_cases hd : c ∈ dels
        · exact .inl hd
        · exact .inr ⟨hc, hd⟩
      · rintro (hc | hc)
        · exact (r.only c hc).1
        · exact hc.1
  have hst : ∀ rr k, stored s.bins.byLit s.db rr k = stored s.bins.byLit db' rr k +
      if rr = true then (dels.map s.db.lits).countP (fun c => decide (c.Perm k)) else 0 := by
    intro rr k
    by_cases hk : k.length = 2
    · have hz : (dels.map s.db.lits).countP (fun c => decide (c.Perm k)) = 0 := by
        rw [List.countP_eq_zero]
        intro c hc
        obtain ⟨d, hd, rfl⟩ := List.mem_map.1 hc
        have := (hlong d hd).2
        simp only [decide_eq_true_eq]
        intro hp
        have := hp.length_eq
        omega
      rw [hz]
      match k, hk with
      | [c, d], _ => cases rr <;> simp [stored]
    · rw [stored_long hk, stored_long hk, hperm.countP_eq, List.countP_append, Nat.add_comm]
      congr 1
      · refine List.countP_congr fun c hc => ?_
        rw [r.hdr c (Db.mem_iter.1 hc), r.lits]
      · rw [List.countP_map]
        cases rr with
        | false =>
          simp only [Bool.false_eq_true, if_false]
          rw [List.countP_eq_zero]
          intro c hc
          simp [(r.only c hc).2.1]
        | true =>
          simp only [if_true]
          refine List.countP_congr fun c hc => ?_
          simp [(r.only c hc).2.1]
  obtain ⟨V', v1, v2, v3, v4⟩ := SimB.delsRed hv (dels.map s.db.lits) k2.b (by
    intro c hc
    obtain ⟨d, hd, rfl⟩ := List.mem_map.1 hc
    exact ⟨(hlong d hd).1, by have := (hlong d hd).2; omega⟩) (by
    intro k _
    rw [hst true k, if_pos rfl]
    omega) k1
  refine ⟨h.v, h.r, V', ?_, ⟨v2.congr fun rr k _ _ => ?_, ?_, by rw [← k2.unsat]; exact Bool.eq_iff_iff.1 v3, by rw [v4]; exact k2.asm⟩⟩
  · simp only [List.map_map] at v1 ⊢
    exact v1
  · show stored s.bins.byLit db' rr k = stored s.bins.byLit s.db rr k - _
    rw [hst rr k]; omega
  · exact k2.use.congr (fun c hc => Db.mem_iter.2 ((r.live c).1 (Db.mem_iter.1 hc)).1) fun c _ => by
      show (db'.lits c).Perm _; rw [r.lits]

theorem Tracked.reduceMids (h : Tracked a s) (hi : DbInv s.db) : Tracked a { s with db := s.db.reduceMids } := by
  obtain ⟨r1, r2, _⟩ := Db.reduceMids_ok hi
  exact h.dbSame hi.nodup r1.nodup r2 rfl rfl rfl rfl Iff.rfl rfl

theorem known_node {p q : Pt} (hn : Db.NodeSame p q) (hr : ∀ l, p.Root l → (q.reason l.var = .unit ↔ p.reason l.var = .unit)) :
    Known q l ↔ Known p l := by
  unfold Known
  rw [hn.root]
  constructor
  · rintro ⟨h1, h2⟩; exact ⟨h1, (hr l h1).1 h2⟩
  · rintro ⟨h1, h2⟩; exact ⟨h1, (hr l h1).2 h2⟩

theorem Tracked.collect (h : Tracked a s) (hi : SInv F A ids s) {db' : Db α} {p' : Pt} {w' : Wl}
    (ho : s.db.collect s.p s.w = some (db', p', w')) : Tracked a { s with db := db', p := p', w := w' } := by
  unfold Db.collect at ho
  split at ho
  · obtain ⟨db2, p2, g, e1, r⟩ := Db.collectNow_ok hi.core.dbi hi.core.c.tr s.w hi.core.c.len (by
      intro l hl c hr
      obtain ⟨k, hk⟩ := List.getElem?_of_mem hl
      have := hi.core.c.rs k l hk
      unfold ReasonAt at this
      rw [hr] at this
      obtain ⟨h1, rest, h2, _⟩ := this
      exact ⟨h1, rest, h2⟩)
    rw [ho] at e1
    cases e1
    obtain ⟨V, k1, k2⟩ := h.view
    have hre : ∀ l, s.p.Root l → (p'.reason l.var = .unit ↔ s.p.reason l.var = .unit) := by
      intro l hl
      by_cases ht : ∃ m ∈ s.p.trail, m.var = l.var
      · obtain ⟨m, hm, hmv⟩ := ht
        rw [← hmv, r.reason m hm]
        cases s.p.reason m.var <;> simp [Reason.rename]
      · unfold Pt.reason
        rw [r.off l.var (fun m hm hmv => ht ⟨m, hm, hmv⟩)]
    have hit : db'.iter = s.db.iter.map g := by
      unfold Db.iter
      rw [r.clauses]
      refine List.filter_eq_self.2 fun d hd => ?_
      obtain ⟨c, hc, rfl⟩ := List.mem_map.1 hd
      have hc' := Db.mem_iter.1 hc
      rw [r.hdr c hc', hc'.2]; rfl
    refine ⟨h.v, fun l hl => (hre l (r.node.root.1 hl)).2 (h.r l (r.node.root.1 hl)), V, k1,
      k2.change h.v rfl ?_ ?_ (fun _ hl => hl) Iff.rfl fun l _ => known_node r.node hre⟩
    · intro rr k
      by_cases hk : k.length = 2
      · match k, hk with
        | [c, d], _ => rfl
      · rw [stored_long hk, stored_long hk]
        show (db'.iter).countP _ = _
        rw [hit, List.countP_map]
        refine List.countP_congr fun c hc => ?_
        have hc' := Db.mem_iter.1 hc
        simp only [Function.comp]
        rw [r.hdr c hc', r.lits c hc']
    · refine ⟨k2.use.bins, fun d hd => ?_⟩
      have hd : d ∈ db'.iter := hd
      rw [hit] at hd
      obtain ⟨c, hc, rfl⟩ := List.mem_map.1 hd
      show Ordin s.vars (db'.lits (g c)) ∧ 3 ≤ (db'.lits (g c)).length
      rw [r.lits c (Db.mem_iter.1 hc)]
      exact k2.use.long c hc
  · cases ho
    exact h

/-! ### Propagation -/

theorem Known.ne_var (h : p.Root l) (hu : p.value m.var = none) : l.var ≠ m.var := by
  intro hv
  have h1 := h.1
  rw [Pt.isTrue_iff, hv, hu] at h1
  cases h1

theorem Known.enqueue_of (hp : p.Ok) (hu : p.value m.var = none) {r : Reason} (hr : r ≠ .unit) :
    Known (p.enqueue m r) l ↔ Known p l := by
  constructor
  · rintro ⟨h1, h2⟩
    rcases Pt.root_enqueue hp hu h1 with h3 | ⟨rfl, _⟩
    · refine ⟨h3, ?_⟩
      unfold Pt.reason at h2 ⊢
      rwa [Pt.enqueue_node_ne (Known.ne_var h3 hu)] at h2
    · rw [Pt.enqueue_reason_self] at h2
      exact absurd h2 hr
  · rintro ⟨h1, h2⟩
    refine ⟨h1.enqueue hu, ?_⟩
    unfold Pt.reason at h2 ⊢
    rwa [Pt.enqueue_node_ne (Known.ne_var h1 hu)]

theorem R0.enqueue_pos (h : R0 p) (hp : p.Ok) (hu : p.value m.var = none) (hc : p.curLevel ≠ 0) {r : Reason} : R0 (p.enqueue m r) := by
  intro l hl
  rcases Pt.root_enqueue hp hu hl with h3 | ⟨_, h0⟩
  · have := h l h3
    unfold Pt.reason at this ⊢
    rwa [Pt.enqueue_node_ne (Known.ne_var h3 hu)]
  · exact absurd h0 hc

theorem R1.enqueue_any (h : R1 p) (hp : p.Ok) (hu : p.value m.var = none) {r : Reason} : R1 (p.enqueue m r) := by
  intro l hl
  rcases Pt.root_enqueue hp hu hl with h3 | ⟨rfl, _⟩
  · rcases h l h3 with h4 | h4
    · left
      unfold Pt.reason at h4 ⊢
      rwa [Pt.enqueue_node_ne (Known.ne_var h3 hu)]
    · right
      rw [Pt.enqueue_trail]; simp [h4]
  · right
    rw [Pt.enqueue_trail]; simp

theorem Ext.ok (h : Ext p q) (hp : p.Ok) : q.Ok := by
  induction h with
  | refl => exact hp
  | step _ hu _ ih => exact ih.enqueue hu

theorem Ext.known (h : Ext p q) (hp : p.Ok) : Known q l ↔ Known p l := by
  induction h with
  | refl => exact Iff.rfl
  | step h1 hu hr ih => exact (Known.enqueue_of (h1.ok hp) hu hr).trans ih

theorem Ext.r1 (h : Ext p q) (hp : p.Ok) (hr : R1 p) : R1 q := by
  induction h with
  | refl => exact hr
  | step h1 hu _ ih => exact ih.enqueue_any (h1.ok hp) hu

theorem Ext.r0 (h : Ext p q) (hp : p.Ok) (hr : R0 p) (hd : p.decisions ≠ []) : R0 q := by
  induction h with
  | refl => exact hr
  | step h1 hu _ ih =>
    refine ih.enqueue_pos (h1.ok hp) hu ?_
    unfold Pt.curLevel
    rw [h1.decisions]
    simpa using hd

theorem Ext.setQhead {p q : Pt} (h : Ext p q) (n : Nat) : Ext { p with qhead := n } { q with qhead := n } := by
  induction h with
  | refl => exact .refl
  | @step q _ _ _ hu hr ih => exact Ext.step (q := { q with qhead := n }) ih hu hr

theorem Pt.Ok.atEnd (h : p.Ok) : ({ p with qhead := p.trail.length } : Pt).Ok :=
  ⟨h.val, h.nodup, h.depth, h.level, h.off, h.sorted, h.dlt, Nat.le_refl _, fun d hd => Nat.le_of_lt (h.dlt d hd)⟩

theorem PExt.atEnd (h : PExt p q) : Ext { p with qhead := p.trail.length } { q with qhead := p.trail.length } :=
  h.ext.setQhead _

theorem Tracked.propagate (h : Tracked a s) (hi : SInv F A ids s) (h2 : Prop2 s.bins.byLit s.db s.p) {o : Option Conflict}
    (ho : s.propagate = .ok (s', o)) : Tracked1 a s' ∧ (s'.p.decisions ≠ [] → Tracked a s') := by
  obtain ⟨t, o', e1, e2, e3, e4, e5, _⟩ := hi.propagate h2
  rw [ho] at e1
  cases e1
  obtain ⟨V, k1, k2⟩ := h.view
  have hx := e3.atEnd
  have hok := hi.core.c.tr.atEnd
  have hlog : s'.log = s.log := by rw [e4]
  have hvars : s'.vars = s.vars := by rw [e4]
  have hasm : s'.asm = s.asm := by rw [e4]
  have hsat : s'.sat = s.sat := by rw [e4]
  have hbins : s'.bins = s.bins := by rw [e4]
  have hiter : s'.db.iter = s.db.iter := by rw [e4]; rfl
  have hhdr : s'.db.hdr = s.db.hdr := by rw [e4]
  have hview : ∃ V, Seen s'.log V ∧ Sim a s' V := by
    refine ⟨V, by rw [hlog]; exact k1, k2.change h.v hvars ?_ ?_ (fun l hl => by rw [← hasm]; exact hl) (by rw [hsat])
      fun l _ => hx.known (p := { s.p with qhead := s.p.trail.length }) hok⟩
    · rw [hbins]
      exact stored_congr (List.Perm.of_eq hiter) fun c _ => ⟨by rw [hhdr], e5 c⟩
    · rw [hbins]
      exact k2.use.congr (fun c hc => by rw [← hiter]; exact hc) fun c _ => e5 c
  refine ⟨⟨by rw [hvars]; exact h.v, ?_, hview⟩, fun hd => ⟨by rw [hvars]; exact h.v, ?_, hview⟩⟩
  · exact hx.r1 hok h.r.r1
  · refine hx.r0 hok h.r ?_
    intro h0
    refine hd ?_
    rw [e3.ext.decisions]
    exact h0

/-! ### Decisions -/

theorem known_decide (hp : p.Ok) (hu : p.value m.var = none) : Known (p.newLevel.enqueue m .unit) l ↔ Known p l := by
  unfold Known
  rw [Pt.root_decide hp hu]
  constructor
  · rintro ⟨h1, h2⟩
    refine ⟨h1, ?_⟩
    unfold Pt.reason at h2 ⊢
    rwa [Pt.enqueue_node_ne (Known.ne_var h1 hu)] at h2
  · rintro ⟨h1, h2⟩
    refine ⟨h1, ?_⟩
    unfold Pt.reason at h2 ⊢
    rwa [Pt.enqueue_node_ne (Known.ne_var h1 hu)]

theorem R0.decide (h : R0 p) (hp : p.Ok) (hu : p.value m.var = none) : R0 (p.newLevel.enqueue m .unit) := by
  intro l hl
  rw [Pt.root_decide hp hu] at hl
  have := h l hl
  unfold Pt.reason at this ⊢
  rwa [Pt.enqueue_node_ne (Known.ne_var hl hu)]

theorem Tracked.fewer (h : Tracked a s) {ls : List Lit} (hl : ∀ l ∈ ls, l ∈ s.asm.lits) :
    Tracked a { s with asm := { s.asm with lits := ls } } := by
  obtain ⟨V, k1, k2⟩ := h.view
  exact ⟨h.v, h.r, V, k1, k2.b, k2.use, k2.unsat, fun l hm => k2.asm l (hl l hm)⟩

theorem Tracked.enqLoop : ∀ (n : Nat) {s : St α} {o : St.Enq}, Tracked a s → s.p.Ok → St.enqLoop n s = .ok (s', o) → o ≠ .conflict →
    Tracked a s'
  | 0, _, _, _, _, h, _ => by cases h
  | n + 1, s, o, h, hp, ho, hne => by
    rw [St.enqLoop] at ho
    simp only at ho
    split at ho
    · cases ho; exact h
    · rename_i l hl
      split at ho
      · obtain ⟨t, _, ho⟩ := bind_inv ho
        cases ho
        exact absurd rfl hne
      · refine Tracked.enqLoop n (h.fewer fun m hm => St.swapRemove_mem (List.getElem?_eq_some_iff.1 hl).1 hm) hp ho hne
      · rename_i hv
        rw [Pt.litValue_none] at hv
        cases ho
        exact h.change rfl rfl rfl rfl rfl Iff.rfl (h.r.decide hp hv) fun m => known_decide hp hv

theorem Tracked.makeDecision (h : Tracked a s) (hi : SInv F A ids s) : Tracked a s.makeDecision.1 := by
  have hf := findVar_ok (s.vsids.len + 1) hi.q (Nat.lt_succ_self _)
  unfold St.makeDecision
  generalize St.findVar s.p (s.vsids.len + 1) s.vsids = r at *
  obtain ⟨o, q'⟩ := r
  cases o with
  | none => exact h.change rfl rfl rfl rfl rfl Iff.rfl h.r fun _ => Iff.rfl
  | some u =>
    simp only at hf ⊢
    have hu : s.p.value (Lit.mk' u (s.p.last u)).var = none := by simpa using hf.2.1
    exact h.change rfl rfl rfl rfl rfl Iff.rfl (h.r.decide hi.core.c.tr hu) fun m => known_decide hi.core.c.tr hu

/-! ### Learned clauses -/

/-- Storing a learned clause and enqueuing its first literal. -/
theorem SimB.learned (hb : SimB a x p st V) (hv : VInv x) {c : List Lit} (ho : Ordin x c) (hl : 2 ≤ c.length) (red : Bool) {hs : List Nat} :
    SimB a x p (more st red c) (V.step (gstep x (.atClause red c hs))) ∧ (V.step (gstep x (.atClause red c hs))).unsat = V.unsat ∧
      (V.step (gstep x (.atClause red c hs))).asm = V.asm := by
  have h1 := hb.store hv ho hl red
  have h2 : (V.store red (canon x c)).unsat = V.unsat := View.store_long_unsat (by rw [ho.length hv]; exact hl)
  have h3 := (V.store_vars red (canon x c)).2.2.2.2.2.1
  cases red with
  | true => exact ⟨h1, h2, h3⟩
  | false => exact ⟨h1.view (h1.c.view rfl) rfl rfl rfl rfl rfl rfl rfl, h2, h3⟩

theorem Tracked.learn (h : Tracked a s) (hi : SInv F A ids s) {c : Conflict} (hcur : 0 < s.p.curLevel)
    (hc : CRes s.vars.pres (cls s.bins.byLit s.db) s.p c) (hlen : s.vars.gfs.len < 2 ^ 32) (ho : s.learn e c = .ok s') :
    Tracked a s' := by
  have hv := h.v
  have htl : s.p.trail.length ≤ s.varCount := hi.core.c.tr.length_le (fun l hl => hi.lt _ (hi.core.c.pres l hl))
  obtain ⟨L, e1, r⟩ := analyze_ok (e := e) hi.core.c hc hcur hi.fl hi.q.wf (fuel := s.varCount + 1) (Nat.le_succ_of_le htl)
  obtain ⟨hs, hh⟩ := analyze_hints hi.core.c hc hi.fl hi.q.wf (by
    have : s.varCount = s.vars.gfs.len := hi.q.count
    omega) e1
  obtain ⟨u, rest, l1, ⟨ku, l2, l3⟩, l4, l5, l6, l7, l8⟩ := r.eq
  have hbt : L.backtrackTo < s.p.curLevel := by
    cases rest with
    | nil => rw [l8 rfl]; exact hcur
    | cons y ys => rw [← l7 y rfl]; obtain ⟨_, _, _, hy⟩ := l4 y (by simp); exact hy
  obtain ⟨n, hd⟩ : ∃ n, s.p.decisions[L.backtrackTo]? = some n := by
    rw [← Option.isSome_iff_exists, List.getElem?_eq_getElem hbt]; rfl
  obtain ⟨b1, b2⟩ := Db.bumpAll_same e.car s.p L.involved (s.db, s.cbump, s.tmp) hi.core.dbi r.inv
  unfold St.learn at ho
  have e1' : analyze e s.p s.db.lits s.vflags s.vsids (s.varCount + 1) c = .ok L := e1
  rw [e1', ok_bind] at ho
  simp only at ho
  generalize hB : L.involved.foldl (fun b cref => bumpClause e.car s.p cref b) (s.db, s.cbump, s.tmp) = B at *
  obtain ⟨d1, d2⟩ := Db.decayActivities_same e.car b1 B.2.1
  generalize hD : B.1.decayActivities e.car B.2.1 = D at *
  have hsame : DbSame s.db D.1 := b2.trans d2
  have hpr : ∀ l ∈ u :: rest, s.vars.pres l.var := by
    intro l hl
    have : ∃ k, s.p.At k l.neg := by
      rcases List.mem_cons.1 hl with rfl | hl
      · exact ⟨ku, l2⟩
      · obtain ⟨k, hk, _⟩ := l4 l hl; exact ⟨k, hk⟩
    obtain ⟨k, hk⟩ := this
    simpa using hi.core.c.pres _ hk.mem
  have hord : Ordin s.vars (u :: rest) := by
    refine ⟨hpr, ?_⟩
    rw [List.map_cons, List.nodup_cons]
    refine ⟨?_, l5⟩
    intro hm
    obtain ⟨y, hy, hyv⟩ := List.mem_map.1 hm
    obtain ⟨_, _, _, hlt⟩ := l4 y hy
    rw [hyv, l3] at hlt
    omega
  have huv : (s.p.backtrack L.backtrackTo).1.value u.var = none := by
    have := Pt.backtrack_unassigned hi.core.c.tr hd l2 (by simp only [Lit.var_neg]; omega)
    simpa using this
  have hok : (s.p.backtrack L.backtrackTo).1.Ok := (hi.core.backtrack hd).c.tr
  have hz : rest = [] ↔ (s.p.backtrack L.backtrackTo).1.curLevel = 0 := by
    rw [Pt.backtrack_curLevel hd]
    refine ⟨l8, fun h0 => ?_⟩
    cases rest with
    | nil => rfl
    | cons y ys =>
      have h3 := l7 y rfl
      obtain ⟨_, _, h4, _⟩ := l4 y (by simp)
      omega
  have t1 : Tracked a { s with db := D.1, cbump := D.2, tmp := B.2.2, vflags := L.flags, vsids := L.vsids } :=
    h.dbSame hi.core.dbi.nodup d1.nodup hsame rfl rfl rfl rfl Iff.rfl rfl
  have t2 : Tracked a (St.backtrack { s with db := D.1, cbump := D.2, tmp := B.2.2, vflags := L.flags, vsids := L.vsids } L.backtrackTo) :=
    t1.backtrack fun _ _ => hi.core.c.tr
  obtain ⟨t, ht⟩ : ∃ t, t = St.backtrack { s with db := D.1, cbump := D.2, tmp := B.2.2, vflags := L.flags, vsids := L.vsids } L.backtrackTo := ⟨_, rfl⟩
  have htv : t.vars = s.vars := by rw [ht]; rfl
  have htp : t.p = (s.p.backtrack L.backtrackTo).1 := by rw [ht]; rfl
  have htb : t.bins = s.bins := by rw [ht]; rfl
  have htd : t.db = D.1 := by rw [ht]; rfl
  rw [← ht] at t2 ho
  rw [l1] at ho
  rw [← htp] at huv hok hz
  rw [← htv] at hord hpr hv
  rw [St.emit_glit (st := .atClause (decide ((u :: rest).length > 2)) (u :: rest) L.hashes) hpr, ok_bind] at ho
  obtain ⟨V, k1, k2⟩ := t2.view
  -- the step is accepted
  have hacc : V.Acc (gstep t.vars (.atClause (decide ((u :: rest).length > 2)) (u :: rest) L.hashes)) := by
    refine ⟨hord.notaut hv, .inr ?_⟩
    rw [hh.eq]
    refine k2.b.hints hv k2.use (known := fun x => x.neg ∈ L.clause ∨ s.p.Root x) ?_ hh.chain ?_
    · intro d hdm
      rw [htb, htd]
      rcases hh.inDb d hdm with ⟨y, z, h1, h2⟩ | ⟨y, h1, h2⟩
      · exact .inl ⟨y, z, h1, h2⟩
      · refine .inr ⟨y, (hsame.live y).2 h1, ?_⟩
        show d = D.1.lits y
        rw [hsame.lits]; exact h2
    · rintro y hy (h1 | h1)
      · left
        rw [l1] at h1
        rw [← glit_neg]
        exact List.mem_map.2 ⟨_, h1, rfl⟩
      · right
        rw [k2.b.u.true_iff hv hy, t2.r.known, htp]
        exact (Pt.backtrack_root hi.core.c.tr hd).2 h1
  have hsh := k1.snoc hacc ((k2.b.v.at hv hord (by
      have h1 := hh.le
      rw [hh.eq, List.length_map, htv, show s.vars.gfs.len = s.varCount from hi.q.count.symm]
      omega) (fun y hy => by
      rw [hh.eq] at hy
      obtain ⟨d, -, rfl⟩ := List.mem_map.1 hy
      exact clauseHash_lt d)).mono (view_nvars V _))
  have hdl : ∀ c ∈ t.db.clauses, c < t.db.size := by rw [htd]; exact d1.lt
  clear hacc e1 e1' r hh hB hD
  match rest, hord, hpr, hz, ho, hsh with
  | [], hord, hpr, hz, ho, hsh =>
    cases ho
    have hd0 : t.p.decisions = [] := by
      have := hz.1 rfl
      unfold Pt.curLevel at this
      exact List.length_eq_zero_iff.1 this
    have hkn : ∀ y, Known (t.p.enqueue u .unit) y ↔ y = u ∨ Known t.p y := known_enqueue hok hd0 huv
    have hnn : ¬ Known t.p u.neg := by
      intro hx
      exact Known.ne_var hx.1 (m := u) huv (by simp)
    obtain ⟨c1, c2⟩ := k2.b.unit hv (hpr u (by simp)) (q := t.p.enqueue u .unit) (fun y _ => hkn y) hnn false
    have hstep : V.step (gstep t.vars (.atClause (decide ([u].length > 2)) [u] L.hashes)) =
        { V.store false [glit t.vars u] with prev := some [glit t.vars u] } := by
      show { V.store false (canon t.vars [u]) with prev := some (canon t.vars [u]) } = _
      rw [canon_one hv (hpr u (by simp))]
    rw [hstep] at hsh
    refine ⟨hv, t2.r.enqueue hok huv, _, hsh, ⟨c1.view (c1.c.view rfl) rfl rfl rfl rfl rfl rfl rfl, k2.use, by rw [← k2.unsat]; exact Bool.eq_iff_iff.1 c2, ?_⟩⟩
    show ∀ l ∈ t.asm.lits, _ ∧ _ ∈ (V.store false [glit t.vars u]).asm
    rw [(V.store_vars _ _).2.2.2.2.2.1]
    exact k2.asm
  | [y], hord, hpr, hz, ho, hsh =>
    cases ho
    have hc0 : t.p.curLevel ≠ 0 := fun h0 => by have := hz.2 h0; cases this
    obtain ⟨c1, c2, c3⟩ := k2.b.learned hv hord (by simp) (decide ([u, y].length > 2)) (hs := L.hashes)
    have hne : u.var ≠ y.var := by have := hord.nodup; simp at this; exact this
    refine ⟨hv, t2.r.enqueue_pos hok huv hc0, _, hsh, ⟨?_, k2.use.addBin hord, by rw [← k2.unsat]; exact Bool.eq_iff_iff.1 c2, ?_⟩⟩
    · refine (c1.point (fun z _ => Known.enqueue_of hok huv (by simp)) hv).congr fun rr k _ _ => ?_
      exact Bins.add_stored hne rr k
    · rw [c3]; exact k2.asm
  | y :: z :: tl, hord, hpr, hz, ho, hsh =>
    have hc0 : t.p.curLevel ≠ 0 := fun h0 => by have := hz.2 h0; cases this
    have hred : decide ((u :: y :: z :: tl).length > 2) = true := by simp
    rw [hred] at ho hsh
    obtain ⟨c1, c2, c3⟩ := k2.b.learned hv hord (by simp) true (hs := L.hashes)
    unfold St.addLearned at ho
    simp only at ho
    cases hadd : t.db.addClause t.w (assess e.car t.p t.tmp (u :: y :: z :: tl)).2 (u :: y :: z :: tl) with
    | none => rw [hadd] at ho; cases ho
    | some res =>
      obtain ⟨db2, w2, cr⟩ := res
      rw [hadd] at ho
      cases ho
      refine ⟨hv, t2.r.enqueue_pos hok huv hc0, _, hsh, ⟨?_, k2.use.addClause hadd rfl hdl hord, by rw [← k2.unsat]; exact Bool.eq_iff_iff.1 c2, ?_⟩⟩
      · refine (c1.point (fun z _ => Known.enqueue_of hok huv (by simp)) hv).congr fun rr k _ _ => ?_
        have := Db.addClause_stored (bin := t.bins.byLit) hadd rfl hdl rr k
        rw [show decide ((assess e.car t.p t.tmp (u :: y :: z :: tl)).2.tier ≠ Tier.irred) = true from
          decide_eq_true (Db.selectTier_ne _)] at this
        exact this
      · rw [c3]; exact k2.asm

/-- `conflict_step` after a conflict in level 0. -/
theorem Tracked1.learn_zero (h : Tracked1 a s) (hi : SInv F A ids s) {c : Conflict} (hd : s.p.decisions = [])
    (hc : CRes s.vars.pres (cls s.bins.byLit s.db) s.p c) {s1 : St α} {b : Bool} (hp : s.proveUnits = .ok (s1, b))
    (ho : s1.learn e c = .ok s') : Tracked a s' := by
  have t1 := h.proveUnits hi.core.c hd hp
  obtain ⟨q, L, p1, p2, p3, p4, p5, p6, p7⟩ := St.proveUnits_zero hi.core.c.tr hd hi.core.c.pres
  rw [hp] at p1
  have p1' := (Prod.mk.inj (Except.ok.inj p1)).1
  have hdb : s1.db = s.db := by rw [p1']
  have hbn : s1.bins = s.bins := by rw [p1']
  have hvr : s1.vars = s.vars := by rw [p1']
  have hpt : s1.p = q := by rw [p1']
  clear p1 p1' hp
  obtain ⟨d, c1, c2, c3⟩ := Conflict.in hc.isIn
  have hv := t1.v
  -- the state after the analysis
  unfold St.learn at ho
  have han : analyze e s1.p s1.db.lits s1.vflags s1.vsids (s1.varCount + 1) c =
      .ok { clause := [], backtrackTo := 0, involved := [], hashes := [clauseHash (c.lits s1.db.lits)], flags := s1.vflags, vsids := s1.vsids } := by
    unfold analyze
    simp only
    rw [if_pos (by unfold Pt.curLevel; rw [hpt, p5]; rfl)]
  rw [han, ok_bind] at ho
  simp only [List.foldl_nil, List.length_nil] at ho
  rw [St.backtrack_none (by
    show s1.p.curLevel ≤ 0
    unfold Pt.curLevel; rw [hpt, p5]; exact Nat.le_refl _)] at ho
  obtain ⟨d1, d2⟩ := Db.decayActivities_same e.car (db := s1.db) (by rw [hdb]; exact hi.core.dbi) s1.cbump
  generalize hD : s1.db.decayActivities e.car s1.cbump = D at *
  have t2 : Tracked a { s1 with db := D.1, cbump := D.2, tmp := s1.tmp, vflags := s1.vflags, vsids := s1.vsids } :=
    t1.dbSame (by rw [hdb]; exact hi.core.dbi.nodup) d1.nodup d2 rfl rfl rfl rfl Iff.rfl rfl
  rw [St.emit_glit (s := { s1 with db := D.1, cbump := D.2, tmp := s1.tmp, vflags := s1.vflags, vsids := s1.vsids })
    (st := .atClause (decide (0 > 2)) [] [clauseHash (c.lits s1.db.lits)]) (by intro l hl; cases hl), ok_bind] at ho
  cases ho
  obtain ⟨V, k1, k2⟩ := t2.view
  have hacc : V.Acc (gstep s1.vars (.atClause (decide (0 > 2)) [] [clauseHash (c.lits s1.db.lits)])) := by
    refine ⟨(fun l hl => by cases hl), .inr ?_⟩
    have := k2.b.hints hv k2.use (known := fun x => s.p.Root x) (known' := fun l => l.neg ∈ List.map (glit s1.vars) []) (hs := [d]) ?_ ?_ ?_
    · rw [hdb, show clauseHash (c.lits s.db.lits) = clauseHash d from c2.symm]
      exact this
    · intro d' hd'
      rw [List.mem_singleton] at hd'
      subst hd'
      show (cls s1.bins.byLit D.1).In d'
      rw [hbn]
      rcases c1 with ⟨y, z, h1, h2⟩ | ⟨y, h1, h2⟩
      · exact .inl ⟨y, z, h1, h2⟩
      · refine .inr ⟨y, (d2.live y).2 (by rw [hdb]; exact h1), ?_⟩
        show d' = D.1.lits y
        rw [d2.lits, hdb]; exact h2
    · intro l hl
      rw [Pt.root_level0 hi.core.c.tr hd, Pt.isTrue_neg]
      exact hc.false_ l ((c3 l).1 hl)
    · intro l hl hr
      right
      refine (k2.b.u.true_iff hv hl).2 (t2.r.known.2 ?_)
      show s1.p.Root l
      rw [hpt, Pt.root_level0 p2 p5]
      rw [Pt.root_level0 hi.core.c.tr hd] at hr
      unfold Pt.isTrue at hr ⊢
      rw [p3]; exact hr
  refine ⟨hv, t2.r, _, k1.snoc hacc ((k2.b.v.at hv (ls := []) ⟨(fun _ h => by cases h), List.nodup_nil⟩ (by simp) (fun y hy => by
    rw [List.mem_singleton.1 hy]; exact clauseHash_lt _)).mono (view_nvars V _)), ⟨k2.b.view (k2.b.c.view rfl) rfl rfl rfl rfl rfl rfl rfl, k2.use, ⟨fun _ => rfl, fun _ => rfl⟩, k2.asm⟩⟩

/-! ### All steps of a search -/

/-- The variables during a search. -/
theorem SearchFrom.vless {b : Abs} {s0 : St α} (hi : Inv b ids s0) {ph : Phase} (h : SearchFrom (fun x => x = s0) s ph) :
    VLess s0.vars s.vars := by
  induction h with
  | start h1 h2 => subst h1; exact VLess.refl _
  | @restart s e _ ih => unfold St.restartStep; split <;> exact ih
  | reduceLocals h he ih =>
    obtain ⟨h1, h2, _, h3, h4⟩ := h.sinv hi
    obtain ⟨t, k1, k2, k3⟩ := (RInv.mk h1 h2 (h3 (.inl rfl))).reduceLocals
    rw [he] at k1; cases k1
    exact ih.trans k3.vars
  | reduceMids h ih => exact ih
  | collect h he ih => exact ih
  | count h ih => exact ih
  | propagate h he ih =>
    obtain ⟨h1, h2, _⟩ := h.sinv hi
    obtain ⟨t, o, e1, e2, e3, e4, _⟩ := h1.propagate h2
    rw [he] at e1; cases e1
    rw [e4]; exact ih
  | conflict h he ih =>
    obtain ⟨h1, h2, _⟩ := h.sinv hi
    obtain ⟨t, o, e1, e2, e3, e4, _⟩ := h1.propagate h2
    rw [he] at e1; cases e1
    rw [e4]; exact ih
  | @simplify s s1 s' b h hp hs ih =>
    obtain ⟨h1, ⟨h2, h2'⟩, h3, _, h4⟩ := h.sinv hi
    by_cases hd : s.p.decisions = []
    · obtain ⟨u1, b, u2, p1, p2, p3, p4, p5, p6, p7, _⟩ := h1.simplify h2 h2' hd
      rw [hp] at p1; cases p1
      rw [hs] at p2; cases p2
      exact ih.trans p7
    · have hpos : s.p.curLevel ≠ 0 := by
        unfold Pt.curLevel; simpa using hd
      have p1 : s.proveUnits = .ok (s, false) := by unfold St.proveUnits; rw [if_neg hpos]
      rw [hp] at p1; cases p1
      cases hs
      exact ih
  | assumption h he ih =>
    obtain ⟨h1, ⟨h2, h2'⟩, _, h3, h4⟩ := h.sinv hi
    obtain ⟨t, r, f1, f2, f3, f4, f5, f6⟩ := h1.enqueueAssumption h2 h2' (h3 (.inr rfl))
    rw [he] at f1; cases f1
    rw [f3.vars]; exact ih
  | decision h he hm ih =>
    obtain ⟨h1, ⟨h2, h2'⟩, _, h3, h4⟩ := h.sinv hi
    obtain ⟨t, r, f1, f2, f3, f4, f5, f6⟩ := h1.enqueueAssumption h2 h2' (h3 (.inr rfl))
    rw [he] at f1; cases f1
    simp only at f6
    obtain ⟨z, b, g1, g2, g3, g4, g5, g6, g7⟩ := f2.makeDecision f4 (by rw [f6.1]; exact h2') f5 f6.2
    rw [g1]
    show VLess _ z.vars
    rw [g5]
    show VLess _ _
    rw [f3.vars]; exact ih
  | @learn s s1 s' c b e h hp hs hu ih =>
    obtain ⟨h1, h2, h3, _, h4⟩ := h.sinv hi
    by_cases hd : s.p.decisions = []
    · exfalso
      obtain ⟨q, L, p1, p2, p3, p4, p5, p6, p7⟩ := St.proveUnits_zero h1.core.c.tr hd h1.core.c.pres
      rw [hp] at p1; cases p1
      have := SInv.learn_zero (F := []) (A := []) (ids := ids) (t := { s with p := q, log := L })
        ⟨h1.v, h1.q.mono (fun v _ hv => by rw [← p3]; exact hv), h1.fl, h1.asm, .inl ⟨p5, p6⟩⟩ p5 e c hs
      rw [this] at hu; cases hu
    · have hpos : s.p.curLevel ≠ 0 := by
        unfold Pt.curLevel; simpa using hd
      have p1 : s.proveUnits = .ok (s, false) := by unfold St.proveUnits; rw [if_neg hpos]
      rw [hp] at p1; cases p1
      obtain ⟨t, e2, e3, e4, e5, e6⟩ := h1.learn (h3.resolve_left hd) e (by omega) h2
      rw [hs] at e2; cases e2
      exact ih.trans e6.vars

/-- What the checker knows in the places of a search. -/
def PhaseSeen (a : Option Abs) (s : St α) : Phase → Prop
  | .ready | .fixpoint => Tracked a s
  | _ => Tracked1 a s ∧ (s.p.decisions ≠ [] → Tracked a s)

theorem SearchFrom.tracked {b : Abs} {s0 : St α} (hi : Inv b ids s0) (h0 : Tracked a s0) (hlen : s0.vars.gfs.len < 2 ^ 32)
    {ph : Phase} (h : SearchFrom (fun x => x = s0) s ph) : PhaseSeen a s ph := by
  induction h with
  | start h1 h2 => subst h1; exact h0.change rfl rfl rfl rfl rfl Iff.rfl h0.r fun _ => Iff.rfl
  | @restart s e h ih => exact Tracked.restartStep ih (h.sinv hi).1.core.c.tr
  | reduceLocals h he ih => exact Tracked.reduceLocals ih (h.sinv hi).1 he
  | reduceMids h ih => exact Tracked.reduceMids ih (h.sinv hi).1.core.dbi
  | collect h he ih => exact Tracked.collect ih (h.sinv hi).1 he
  | @count s h ih =>
    have ih : Tracked a s := ih
    exact ih.change rfl rfl rfl rfl rfl Iff.rfl ih.r fun _ => Iff.rfl
  | propagate h he ih =>
    obtain ⟨h1, h2, _⟩ := h.sinv hi
    exact Tracked.propagate ih h1 h2 he
  | conflict h he ih =>
    obtain ⟨h1, h2, _⟩ := h.sinv hi
    exact Tracked.propagate ih h1 h2 he
  | @simplify s s1 s' b h hp hs ih =>
    obtain ⟨h1, ⟨h2, h2'⟩, h3, _, h4⟩ := h.sinv hi
    by_cases hd : s.p.decisions = []
    · exact ih.1.simplify h1 h2 h2' hd hp hs
    · have hpos : s.p.curLevel ≠ 0 := by
        unfold Pt.curLevel; simpa using hd
      have p1 : s.proveUnits = .ok (s, false) := by unfold St.proveUnits; rw [if_neg hpos]
      rw [hp] at p1; cases p1
      cases hs
      exact ih.2 hd
  | assumption h he ih => exact Tracked.enqLoop _ ih (h.sinv hi).1.core.c.tr he (by simp)
  | decision h he hm ih =>
    obtain ⟨h1, ⟨h2, h2'⟩, _, h3, h4⟩ := h.sinv hi
    obtain ⟨t, r, f1, f2, f3, f4, f5, f6⟩ := h1.enqueueAssumption h2 h2' (h3 (.inr rfl))
    rw [he] at f1; cases f1
    exact (Tracked.enqLoop _ ih h1.core.c.tr he (by simp)).makeDecision f2
  | @learn s s1 s' c b e h hp hs hu ih =>
    obtain ⟨h1, h2, h3, _, h4⟩ := h.sinv hi
    by_cases hd : s.p.decisions = []
    · exact ih.1.learn_zero h1 hd h2 hp hs
    · have hpos : s.p.curLevel ≠ 0 := by
        unfold Pt.curLevel; simpa using hd
      have p1 : s.proveUnits = .ok (s, false) := by unfold St.proveUnits; rw [if_neg hpos]
      rw [hp] at p1; cases p1
      exact (ih.2 hd).learn h1 (by omega) h2 (by rw [(h.vless hi).slen]; exact hlen) hs

end Varisat.Solver
