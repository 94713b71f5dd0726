import Verif.Spec.Replay
import Verif.Proof.CheckerInv
/-! The steps handed to processors replay correctly. -/
namespace Varisat.Checker
open Replay (Db Refutes)

/-- Occurrence counts of literals. -/
def CountOk (s : St) : Prop :=
  ∀ l : Lit, s.clauseCount l.code = (ents s.buffer s.clauses).countP (fun e => decide (l ∈ e.lits))

structure Link (strict : Prop) (s : St) (d : Db) : Prop where
  next : d.next = s.nextId
  lt : ∀ i c, d.live i = some c → i < d.next
  fwd : ∀ i c, HasId s i c → d.live i = some c
  bwd : ∀ i c, d.live i = some c → 2 ≤ c.length → ∃ e ∈ ents s.buffer s.clauses, e.id = i ∧ e.lits = c
  prev : strict → ∀ i, s.prevId = some i → d.live i = some s.prevLits
  conf : strict → ∀ a b, s.unitConflict = some (a, b) →
    ∃ l : Lit, d.live a = some [l.neg] ∧ d.live b = some [l]
  asm : d.assumed = s.assumptions
  count : CountOk s

theorem set_same (f i x) : Replay.set f i x i = x := by simp [Replay.set]
theorem set_ne {f i x j} (h : j ≠ i) : Replay.set f i x j = f j := by simp [Replay.set, h]

theorem refutes_of {live : Nat → Option (List Lit)} {HC : Nat → List Lit → Prop} {lits ids}
    (h : ∀ i c, HC i c → live i = some c) (hr : Refuted HC lits ids) :
    Refutes live (lits.map Lit.neg) ids := by
  obtain ⟨cls, h1, h2⟩ := hr
  exact ⟨cls, h1.imp fun i c hic => h i c hic, h2⟩

theorem CountOk.same {s s'} (h : CountOk s) (hs : Same s s') : CountOk s' := by
  intro l
  rw [hs.count, h l]
  exact (hs.perm.countP_eq _).symm

theorem Link.same {strict s s' d} (h : Link strict s d) (hs : Same s s') (h1 : s'.prevId = s.prevId)
    (h2 : s'.prevLits = s.prevLits) : Link strict s' d :=
  ⟨by rw [hs.nextId]; exact h.next, h.lt, fun i c hi => h.fwd i c ((hs.hasId i c).1 hi),
    fun i c hi hl => by
      obtain ⟨e, he, h1⟩ := h.bwd i c hi hl
      exact ⟨e, hs.perm.mem_iff.2 he, h1⟩,
    by rw [h1, h2]; exact h.prev, by rw [hs.conflict]; exact h.conf, by rw [hs.assumptions]; exact h.asm,
    h.count.same hs⟩

theorem Link.quiet {strict s s' d o} (h : Link strict s d) (hq : Quiet s o s') : Link strict s' d :=
  h.same hq.toSame hq.prevId hq.prevLits

theorem Link.bump {strict s s' d} (h : Link strict s d) (hb : Bump s s') :
    Link strict s' { d with next := d.next + 1 } := by
  have h1 := h.same hb.same (by exact hb.prevId) (by exact hb.prevLits)
  exact ⟨by rw [hb.nextId, h.next], fun i c hi => Nat.lt_succ_of_lt (h1.lt i c hi),
    fun i c hi => h1.fwd i c hi, h1.bwd, h1.prev, h1.conf, h1.asm, h1.count⟩

theorem countUp_spec {lits : List Lit} (hn : lits.Nodup) (f : Nat → Nat) (l : Lit) :
    countUp lits f l.code = f l.code + if l ∈ lits then 1 else 0 := by
  unfold countUp
  induction lits generalizing f with
  | nil => simp
  | cons m ms ih =>
    rw [List.foldl_cons, ih (List.nodup_cons.1 hn).2]
    by_cases hm : l = m
    · subst hm
      have := (List.nodup_cons.1 hn).1
      simp [upd_same, this]
    · rw [upd_ne _ _ (fun h => hm (Lit.code_inj h))]
      simp [hm]

theorem countDown_spec {lits : List Lit} (hn : lits.Nodup) (f : Nat → Nat) (l : Lit) :
    countDown lits f l.code = f l.code - if l ∈ lits then 1 else 0 := by
  unfold countDown
  induction lits generalizing f with
  | nil => simp
  | cons m ms ih =>
    rw [List.foldl_cons, ih (List.nodup_cons.1 hn).2]
    by_cases hm : l = m
    · subst hm
      have := (List.nodup_cons.1 hn).1
      simp [upd_same, this]
    · rw [upd_ne _ _ (fun h => hm (Lit.code_inj h))]
      simp [hm]

theorem ssorted_nodup {ls : List Lit} (h : SSorted ls) : ls.Nodup := by
  unfold SSorted at h
  exact h.imp fun hab e => by subst e; omega

theorem CountOk.stored {s s' lits red id res} (h : CountOk s) (hs : Stored lits red s s' id res) :
    CountOk s' := by
  intro l
  have key : ents s'.buffer s'.clauses = ents s.buffer s.clauses → s'.clauseCount = s.clauseCount →
      s'.clauseCount l.code = (ents s'.buffer s'.clauses).countP (fun e => decide (l ∈ e.lits)) := by
    intro h1 h2
    rw [h1, h2]; exact h l
  cases hs.kind with
  | empty hl hp _ _ _ _ hcc => exact key hp hcc
  | unitDup _ _ hl _ hp _ _ _ _ hcc => exact key hp hcc
  | unitConflict _ _ hl _ hp _ _ _ _ hcc => exact key hp hcc
  | unitNew _ hl _ hp _ _ _ _ hcc => exact key hp hcc
  | long id res hl he _ _ _ _ hcc =>
    rw [hcc]
    cases he with
    | found e R hel h1 h2 =>
      rw [if_neg (by split <;> simp), h l, h1.countP_eq, h2.countP_eq]
      simp only [List.countP_cons]
    | fresh hn h2 =>
      rw [if_pos rfl, countUp_spec (ssorted_nodup hl.sorted), h l, h2.countP_eq]
      simp [List.countP_cons]

theorem Link.stored_new {strict s s1 d lits red id res} (h : Link strict s d)
    (hs : Stored lits red s s1 id res) (hr : res = .new) :
    id = s.nextId ∧ Link strict s1 { d with
      live := Replay.set d.live id (some lits)
      next := id + 1 } := by
  have hlt : ∀ i c, d.live i = some c → i ≠ s.nextId := by
    intro i c hi he; have := h.lt i c hi; rw [h.next] at this; omega
  have hprev : strict → ∀ i, s1.prevId = some i → Replay.set d.live s.nextId (some lits) i = some s1.prevLits := by
    intro hst i hi
    rw [hs.prevId] at hi; rw [hs.prevLits]
    have := h.prev hst i hi
    rw [set_ne (hlt _ _ this)]; exact this
  have hlt' : ∀ i c, Replay.set d.live s.nextId (some lits) i = some c → i < s.nextId + 1 := by
    intro i c hi
    by_cases he : i = s.nextId
    · omega
    · rw [set_ne he] at hi; have := h.lt i c hi; rw [h.next] at this; omega
  have hconf : ∀ a b, s.unitConflict = some (a, b) → strict → ∃ l : Lit,
      Replay.set d.live s.nextId (some lits) a = some [l.neg] ∧
      Replay.set d.live s.nextId (some lits) b = some [l] := by
    intro a b hab hst
    obtain ⟨l, h1, h2⟩ := h.conf hst a b hab
    exact ⟨l, by rw [set_ne (hlt _ _ h1)]; exact h1, by rw [set_ne (hlt _ _ h2)]; exact h2⟩
  have hasm : d.assumed = s1.assumptions := by rw [hs.assumptions]; exact h.asm
  have hfwd : ∀ i c, HasId s i c → Replay.set d.live s.nextId (some lits) i = some c := by
    intro i c hi
    have := h.fwd i c hi
    rw [set_ne (hlt _ _ this)]; exact this
  have hbwd : lits.length < 2 → ents s1.buffer s1.clauses = ents s.buffer s.clauses →
      ∀ i c, Replay.set d.live s.nextId (some lits) i = some c → 2 ≤ c.length →
      ∃ e ∈ ents s1.buffer s1.clauses, e.id = i ∧ e.lits = c := by
    intro hl hp i c hi hc
    by_cases he : i = s.nextId
    · subst he; rw [set_same] at hi; simp only [Option.some.injEq] at hi; subst hi; omega
    · rw [set_ne he] at hi; rw [hp]; exact h.bwd i c hi hc
  have hcount := h.count.stored hs
  cases hs.kind with
  | empty hl hp hu hsat hc hi hcc =>
    refine ⟨rfl, ⟨hi.symm, hlt', ?_, hbwd (by simp [hl]) hp, hprev, ?_, hasm, hcount⟩⟩
    · intro i c hh
      refine hfwd i c ?_
      unfold HasId at hh ⊢; rw [hp, hu] at hh; exact hh
    · intro hst a b hab; rw [hc] at hab; exact hconf a b hab hst
  | unitDup => simp at hr
  | unitConflict l cid hl hv hp hu hsat hc hi hcc =>
    refine ⟨rfl, ⟨hi.symm, hlt', ?_, hbwd (by simp [hl]) hp, hprev, ?_, hasm, hcount⟩⟩
    · intro i c hh
      refine hfwd i c ?_
      unfold HasId at hh ⊢; rw [hp, hu] at hh; exact hh
    · intro hst a b hab
      rw [hc] at hab
      simp only [Option.some.injEq, Prod.mk.injEq] at hab
      obtain ⟨rfl, rfl⟩ := hab
      have e : Lit.mk' l.var l.isNeg = l.neg := by
        apply Lit.ext_var_neg
        · rw [Lit.var_mk', Lit.var_neg]
        · rw [Lit.isNeg_mk', Lit.isNeg_neg]
      refine ⟨l, ?_, by rw [← hl]; exact set_same ..⟩
      have := hfwd cid [Lit.mk' l.var l.isNeg] (Or.inr ⟨_, _, hv, rfl⟩)
      rw [e] at this; exact this
  | unitNew l hl hv hp hu hsat hc hi hcc =>
    refine ⟨rfl, ⟨hi.symm, hlt', ?_, hbwd (by simp [hl]) hp, hprev, ?_, hasm, hcount⟩⟩
    · rintro i c (hh | ⟨v, b, hvb, rfl⟩)
      · refine hfwd i c (Or.inl ?_); rw [hp] at hh; exact hh
      · rw [hu] at hvb
        unfold upd at hvb
        split at hvb
        · simp only [Option.some.injEq, UnitClause.mk.injEq, UnitId.global.injEq] at hvb
          obtain ⟨rfl, rfl⟩ := hvb
          rename_i e
          subst e
          rw [Lit.mk'_var_neg, ← hl]; exact set_same ..
        · exact hfwd i _ (Or.inr ⟨_, _, hvb, rfl⟩)
    · intro hst a b hab; rw [hc] at hab; exact hconf a b hab hst
  | long id res hl he hu hsat hc hi hcc =>
    subst hr
    rw [if_pos rfl] at hi
    generalize hres : StoreResult.new = res at he
    cases he with
    | found e R hel h1 h2 => split at hres <;> simp at hres
    | fresh hn h2 =>
      refine ⟨rfl, ⟨hi.symm, hlt', ?_, ?_, hprev, ?_, hasm, hcount⟩⟩
      · rintro i c (⟨e, he, h3, h4⟩ | hh)
        · rcases List.mem_cons.1 (h2.mem_iff.1 he) with rfl | he
          · simp only at h3 h4; rw [← h3, ← h4]; exact set_same ..
          · exact hfwd i c (Or.inl ⟨e, he, h3, h4⟩)
        · refine hfwd i c (Or.inr ?_); rw [hu] at hh; exact hh
      · intro i c hi' hlc
        simp only at hi'
        by_cases he : i = s.nextId
        · rw [he] at hi' ⊢; rw [show Replay.set d.live s.nextId (some lits) s.nextId = some lits from set_same ..] at hi'
          simp only [Option.some.injEq] at hi'
          exact ⟨_, h2.mem_iff.2 (List.mem_cons_self ..), rfl, hi'⟩
        · rw [show Replay.set d.live s.nextId (some lits) i = d.live i from set_ne he] at hi'
          obtain ⟨e, he, h3⟩ := h.bwd i c hi' hlc
          exact ⟨e, h2.mem_iff.2 (List.mem_cons_of_mem _ he), h3⟩
      · intro hst a b hab; rw [hc] at hab; exact hconf a b hab hst

theorem Link.stored_old {strict s s1 d lits red id res} (h : Link strict s d)
    (hs : Stored lits red s s1 id res) (hr : res ≠ .new) :
    d.live id = some lits ∧ Link strict s1 d := by
  have hcount := h.count.stored hs
  have hasm : d.assumed = s1.assumptions := by rw [hs.assumptions]; exact h.asm
  have hprev : strict → ∀ i, s1.prevId = some i → d.live i = some s1.prevLits := by
    rw [hs.prevId, hs.prevLits]; exact h.prev
  cases hs.kind with
  | empty => simp at hr
  | unitConflict => simp at hr
  | unitNew => simp at hr
  | unitDup l id hl hv hp hu hsat hc hi hcc =>
    refine ⟨?_, ⟨by rw [hi]; exact h.next, h.lt, ?_, by rw [hp]; exact h.bwd, hprev, by rw [hc]; exact h.conf, hasm, hcount⟩⟩
    · have := h.fwd id _ (Or.inr ⟨_, _, hv, rfl⟩)
      rw [Lit.mk'_var_neg] at this; rw [hl]; exact this
    · intro i c hh
      refine h.fwd i c ?_
      unfold HasId at hh ⊢; rw [hp, hu] at hh; exact hh
  | long id res hl he hu hsat hc hi hcc =>
    rw [if_neg hr] at hi
    cases he with
    | fresh => simp at hr
    | found e R hel h1 h2 =>
      refine ⟨?_, ⟨by rw [hi]; exact h.next, h.lt, ?_, ?_, hprev, by rw [hc]; exact h.conf, hasm, hcount⟩⟩
      · exact h.fwd _ _ (Or.inl ⟨e, h1.mem_iff.2 (by simp), rfl, hel⟩)
      · rintro i c (⟨f, hf, h3, h4⟩ | hh)
        · rcases List.mem_cons.1 (h2.mem_iff.1 hf) with rfl | hf
          · exact h.fwd _ _ (Or.inl ⟨e, h1.mem_iff.2 (by simp), h3, h4⟩)
          · exact h.fwd _ _ (Or.inl ⟨f, h1.mem_iff.2 (List.mem_cons_of_mem _ hf), h3, h4⟩)
        · exact h.fwd _ _ (Or.inr (by rw [hu] at hh; exact hh))
      · intro i c hi' hlc
        obtain ⟨f, hf, h3, h4⟩ := h.bwd i c hi' hlc
        rcases List.mem_cons.1 (h1.mem_iff.1 hf) with rfl | hf
        · exact ⟨_, h2.mem_iff.2 (List.mem_cons_self ..), h3, h4⟩
        · exact ⟨f, h2.mem_iff.2 (List.mem_cons_of_mem _ hf), h3, h4⟩

/-- The steps so far replay, ending in a database that agrees with the checker's. -/
def Rep (strict : Prop) (s : St) : Prop := ∃ d, Replay.Run strict {} s.out d ∧ Link strict s d

theorem Rep.init (strict : Prop) : Rep strict {} := by
  refine ⟨{}, .nil _, ⟨rfl, by simp, ?_, by simp, by simp, by simp, rfl, ?_⟩⟩
  · rintro i c (⟨e, he, -⟩ | ⟨v, b, h, -⟩)
    · simp [ents, flat] at he
    · simp at h
  · intro l; simp [ents, flat]

theorem run_snoc {strict d o o' d' st d''} (h : Replay.Run strict d o d') (ho : o' = o ++ [st])
    (hs : Replay.Step strict d' st d'') : Replay.Run strict d o' d'' := by
  rw [ho]; exact .snoc _ _ _ _ _ h hs

theorem Rep.quiet {strict s s'} (h : Rep strict s) (hq : Quiet s [] s') : Rep strict s' := by
  obtain ⟨d, h1, h2⟩ := h
  exact ⟨d, by rw [hq.out, List.append_nil]; exact h1, h2.quiet hq⟩

theorem Rep.add {strict s s' c} (h : Rep strict s) (he : AddEff c s s') : Rep strict s' := by
  cases he with
  | skipped _ e => rw [e]; exact h
  | taut s1 hu ht hq hb =>
    obtain ⟨d, h1, h2⟩ := h
    refine ⟨{ d with next := d.next + 1 }, run_snoc h1 (hb.out.trans hq.out) ?_, (h2.quiet hq).bump hb⟩
    rw [h2.next]
    exact .taut d _ _ (Nat.le_of_eq h2.next) (by
      obtain ⟨l, hl, hl'⟩ := (canonical_taut c).1 ht
      exact ⟨l, mem_canonical.2 hl, mem_canonical.2 hl'⟩)
  | new s0 s1 id hu ht hq hst hq1 =>
    obtain ⟨d, h1, h2⟩ := h.quiet hq
    obtain ⟨e, h3⟩ := h2.stored_new hst rfl
    refine ⟨_, run_snoc h1 (by rw [hq1.out, hst.out]) (.add d id _ ?_), h3.quiet hq1⟩
    rw [h2.next, e]
  | irred s0 s1 s2 id hu ht hq hst hq1 hb =>
    obtain ⟨d, h1, h2⟩ := h.quiet hq
    obtain ⟨e, h3⟩ := h2.stored_old hst (by simp)
    refine ⟨{ d with next := d.next + 1 }, ?_, (h3.quiet hq1).bump hb⟩
    rw [hb.out, hq1.out, hst.out]
    refine run_snoc (o := s0.out ++ [_]) (run_snoc h1 rfl (.irred d id _ e)) (by simp; rfl) ?_
    rw [h3.next]
    exact .dup d _ _ _ (Nat.le_of_eq h3.next) e
  | dup s0 s1 s2 id hu ht hq hst hq1 hb =>
    obtain ⟨d, h1, h2⟩ := h.quiet hq
    obtain ⟨e, h3⟩ := h2.stored_old hst (by simp)
    refine ⟨{ d with next := d.next + 1 }, ?_, (h3.quiet hq1).bump hb⟩
    refine run_snoc h1 (by rw [hb.out, hq1.out, hst.out]) ?_
    rw [h3.next]
    exact .dup d _ _ _ (Nat.le_of_eq h3.next) e

theorem Rep.at {strict env s s' red c} (hproc : env.hasProc = true) (h : Rep strict s)
    (he : AtEff env red c s s') : Rep strict s' := by
  obtain ⟨s0, s1, s2, id, res, ids, hq, hr, htr, hst, hs2, hq2⟩ := he.run
  have htr := htr hproc
  obtain ⟨d, h1, h2⟩ := h.quiet hq
  have hout : s2.out = s0.out := by rw [hs2, ← hst.out]; split <;> rfl
  have link2 : ∀ d', Link strict s1 d' → d'.live id = some (copyCanonical c).1 → Link strict s2 d' := by
    intro d' hl hid
    rw [hs2]
    split
    · exact hl
    · refine ⟨hl.next, hl.lt, hl.fwd, hl.bwd, ?_, hl.conf, hl.asm, hl.count⟩
      intro _ i hi
      simp only [Option.some.injEq] at hi
      rw [← hi]; exact hid
  cases res with
  | new =>
    obtain ⟨e, h3⟩ := h2.stored_new hst rfl
    refine ⟨_, run_snoc h1 (by rw [hq2.out, hout]) (.rup d id red _ _ (by rw [h2.next, e]) ?_),
      (link2 _ h3 (set_same ..)).quiet hq2⟩
    rw [htr]
    exact refutes_of (fun i c hi => h2.fwd i c ((hq.toSame.hasId i c).2 hi)) hr
  | newlyIrredundant =>
    obtain ⟨e, h3⟩ := h2.stored_old hst (by simp)
    exact ⟨d, run_snoc h1 (by rw [hq2.out, hout]) (.irred d id _ e), (link2 _ h3 e).quiet hq2⟩
  | duplicate =>
    obtain ⟨e, h3⟩ := h2.stored_old hst (by simp)
    exact ⟨d, by rw [hq2.out, hout, List.append_nil]; exact h1, (link2 _ h3 e).quiet hq2⟩

theorem Rep.units {strict env ls s s'} (hproc : env.hasProc = true) (h : Rep strict s)
    (he : UnitsEff env ls s s') : Rep strict s' := by
  induction he with
  | nil s hw => exact h
  | cons l ls s s0 s1 s2 s' id res ids hq hr htr hst hq2 tail ih =>
    apply ih
    have htr := htr hproc
    obtain ⟨d, h1, h2⟩ := h.quiet hq
    by_cases hres : res = .new
    · subst hres
      obtain ⟨e, h3⟩ := h2.stored_new hst rfl
      refine ⟨_, run_snoc h1 (by rw [hq2.out, hst.out]) (.rup d id false _ _ (by rw [h2.next, e]) ?_),
        h3.quiet hq2⟩
      rw [htr]
      exact refutes_of (fun i c hi => h2.fwd i c ((hq.toSame.hasId i c).2 hi)) hr
    · obtain ⟨e, h3⟩ := h2.stored_old hst hres
      refine ⟨d, ?_, h3.quiet hq2⟩
      rw [hq2.out, hst.out]
      cases res with
      | new => exact absurd rfl hres
      | _ => simp only [List.append_nil]; exact h1

theorem Rep.del {strict s s' c proof} (hp : Pre s) (hsort : SSorted s.prevLits) (h : Rep strict s)
    (he : DelStepEff c proof s s') : Rep strict s' := by
  obtain ⟨id, r, s1, o, hd, hw, hu, hsat, hcf, hni, -, has, hout, hpid, hpl, hcc, ho, hq⟩ := he.run
  obtain ⟨d, h1, h2⟩ := h
  have hnd := hp.wf.nodup
  have hok := hp.wf.ent
  have hlive : d.live id = some (copyCanonical c).1 := by
    cases hd with
    | gone e R hl hpm => exact h2.fwd _ _ (Or.inl ⟨e, hpm.mem_iff.2 (by simp), rfl, hl⟩)
    | kept e R hl hpm => exact h2.fwd _ _ (Or.inl ⟨e, hpm.mem_iff.2 (by simp), rfl, hl⟩)
  have hlen := he.len
  -- the database after the deletion
  have hlink : Link strict s1 (if r = .removed then { d with live := Replay.set d.live id none } else d) := by
    cases hd with
    | gone e R hl hpm hpos hz hpm' =>
      rw [if_pos rfl]
      have hne : ∀ i c', d.live i = some c' → c' ≠ e.lits → i ≠ e.id := by
        rintro i c' hi hc rfl
        rw [hl] at hc
        rw [hlive] at hi
        simp only [Option.some.injEq] at hi
        exact hc hi.symm
      have hnd' : (e.lits :: R.map (·.lits)).Nodup := (hpm.map (fun e : Entry => e.lits)).nodup_iff.1 hnd
      have hR : ∀ f ∈ R, f.lits ≠ e.lits := by
        intro f hf heq
        exact (List.nodup_cons.1 hnd').1 (heq ▸ List.mem_map.2 ⟨f, hf, rfl⟩)
      have hlong : 2 ≤ e.lits.length := by rw [hl]; exact hlen
      refine ⟨by rw [hni]; exact h2.next, ?_, ?_, ?_, by rw [hpid]; simp, ?_, by rw [has]; exact h2.asm, ?_⟩
      · intro i c' hi
        by_cases hie : i = e.id
        · subst hie; simp only at hi; rw [set_same] at hi; simp at hi
        · simp only at hi; rw [set_ne hie] at hi; exact h2.lt i c' hi
      · rintro i c' (⟨f, hf, h3, h4⟩ | ⟨v, b, hv, rfl⟩)
        · have hf' := hpm'.mem_iff.1 hf
          have := h2.fwd i c' (Or.inl ⟨f, hpm.mem_iff.2 (List.mem_cons_of_mem _ hf'), h3, h4⟩)
          simp only
          rw [set_ne (hne i c' this (by rw [← h4]; exact hR f hf'))]; exact this
        · rw [hu] at hv
          have := h2.fwd i _ (Or.inr ⟨v, b, hv, rfl⟩)
          simp only
          rw [set_ne (hne i _ this (by intro h; rw [← h] at hlong; simp at hlong))]; exact this
      · intro i c' hi hlc
        by_cases hie : i = e.id
        · subst hie; simp only at hi; rw [set_same] at hi; simp at hi
        · simp only at hi; rw [set_ne hie] at hi
          obtain ⟨f, hf, h3, h4⟩ := h2.bwd i c' hi hlc
          rcases List.mem_cons.1 (hpm.mem_iff.1 hf) with rfl | hf
          · exact absurd h3.symm hie
          · exact ⟨f, hpm'.mem_iff.2 hf, h3, h4⟩
      · intro hst a b hab
        rw [hcf] at hab
        obtain ⟨l, h3, h4⟩ := h2.conf hst a b hab
        refine ⟨l, ?_, ?_⟩
        · simp only; rw [set_ne (hne _ _ h3 (by intro h; rw [← h] at hlong; simp at hlong))]; exact h3
        · simp only; rw [set_ne (hne _ _ h4 (by intro h; rw [← h] at hlong; simp at hlong))]; exact h4
      · intro l
        rw [hcc, if_pos rfl, countDown_spec (ssorted_nodup (canonical_ssorted c)), h2.count l,
          hpm.countP_eq, hpm'.countP_eq, List.countP_cons, hl]
        by_cases hm : l ∈ (copyCanonical c).1 <;> simp [hm]
    | kept e R hl hpm hpos hz hpm' =>
      have hrr : ∀ x : DeleteResult, x = (if (!(decide (proof = DeleteProof.redundant)) && e.irred -
          (if decide (proof = DeleteProof.redundant) = true then 0 else 1) == 0) = true then .newlyRedundant else .unchanged) →
          x ≠ .removed := by
        intro x hx; subst hx; generalize (_ && _) = b; cases b <;> simp
      rw [if_neg (hrr _ rfl)]
      rw [if_neg (hrr _ rfl)] at hcc
      refine ⟨by rw [hni]; exact h2.next, h2.lt, ?_, ?_, by rw [hpid]; simp, by rw [hcf]; exact h2.conf, by rw [has]; exact h2.asm, ?_⟩
      · rintro i c' (⟨f, hf, h3, h4⟩ | ⟨v, b, hv, rfl⟩)
        · rcases List.mem_cons.1 (hpm'.mem_iff.1 hf) with rfl | hf
          · exact h2.fwd _ _ (Or.inl ⟨e, hpm.mem_iff.2 (by simp), h3, h4⟩)
          · exact h2.fwd _ _ (Or.inl ⟨f, hpm.mem_iff.2 (List.mem_cons_of_mem _ hf), h3, h4⟩)
        · rw [hu] at hv
          exact h2.fwd i _ (Or.inr ⟨v, b, hv, rfl⟩)
      · intro i c' hi hlc
        obtain ⟨f, hf, h3, h4⟩ := h2.bwd i c' hi hlc
        rcases List.mem_cons.1 (hpm.mem_iff.1 hf) with rfl | hf
        · exact ⟨_, hpm'.mem_iff.2 (List.mem_cons_self ..), h3, h4⟩
        · exact ⟨f, hpm'.mem_iff.2 (List.mem_cons_of_mem _ hf), h3, h4⟩
      · intro l
        rw [hcc, h2.count l, hpm.countP_eq, hpm'.countP_eq]
        simp only [List.countP_cons]
  -- a justification by one clause
  have hjust : ∀ sid d0, d.live sid = some d0 → (∀ l ∈ d0, l ∈ (copyCanonical c).1) →
      Refutes d.live ((copyCanonical c).1.map Lit.neg) [sid] := by
    intro sid d0 h3 h4
    refine ⟨[d0], .cons h3 .nil, ?_⟩
    intro l hl
    exact List.mem_map.2 ⟨l, h4 l hl, rfl⟩
  have hsat' : ∀ l ∈ (copyCanonical c).1, ∀ sid, s.units l.var = some ⟨.global sid, !l.isNeg⟩ →
      id ∉ [sid] ∧ Refutes d.live ((copyCanonical c).1.map Lit.neg) [sid] := by
    intro l hl sid hsid
    have h3 := h2.fwd sid _ (Or.inr ⟨_, _, hsid, rfl⟩)
    rw [Lit.mk'_var_neg] at h3
    refine ⟨?_, hjust sid _ h3 (by simpa using hl)⟩
    simp only [List.mem_singleton]
    rintro rfl
    rw [hlive] at h3
    simp only [Option.some.injEq] at h3
    rw [h3] at hlen; simp at hlen
  have hfin : ∀ st d', o = [st] → Replay.Step strict d st d' →
      d' = (if r = .removed then { d with live := Replay.set d.live id none } else d) → Rep strict s' := by
    intro st d' ho' hstep hd'
    subst hd'
    exact ⟨_, run_snoc h1 (by rw [hq.out, hout, ho']) hstep, hlink.quiet hq⟩
  have hnone : o = [] → r ≠ .removed → Rep strict s' := by
    intro ho' hr
    rw [if_neg hr] at hlink
    exact ⟨d, by rw [hq.out, hout, ho', List.append_nil]; exact h1, hlink.quiet hq⟩
  cases proof with
  | redundant =>
    cases r with
    | removed => exact hfin _ _ ho (.del d id _ hlive) (by simp)
    | unchanged => exact hnone ho (by simp)
    | newlyRedundant => exact absurd ho (by simp)
  | satisfied =>
    cases r with
    | unchanged => exact hnone ho (by simp)
    | removed =>
      obtain ⟨l, hl, sid, hsid, ho⟩ := ho
      exact hfin _ _ ho (.delAt d id _ _ _ hlive fun _ => hsat' l hl sid hsid) (by simp)
    | newlyRedundant =>
      obtain ⟨l, hl, sid, hsid, ho⟩ := ho
      exact hfin _ _ ho (.delAt d id _ _ _ hlive fun _ => hsat' l hl sid hsid) (by simp)
  | simplified =>
    have hsub := (isSubsetLoop_spec hsort (canonical_ssorted c) (st := false)).1 he.just.2
    have hj : ∀ sid, s.prevId = some sid → strict →
        id ∉ [sid] ∧ Refutes d.live ((copyCanonical c).1.map Lit.neg) [sid] := by
      intro sid hsid hst
      have h3 := h2.prev hst sid hsid
      refine ⟨?_, hjust sid _ h3 hsub.1⟩
      simp only [List.mem_singleton]
      rintro rfl
      rw [hlive] at h3
      simp only [Option.some.injEq] at h3
      rcases hsub.2 with h | ⟨l, hl, hnl⟩
      · simp at h
      · rw [h3] at hl; exact hnl hl
    cases r with
    | unchanged => exact hnone ho (by simp)
    | removed =>
      obtain ⟨sid, hsid, ho⟩ := ho
      exact hfin _ _ ho (.delAt d id _ _ _ hlive (hj sid hsid)) (by simp)
    | newlyRedundant =>
      obtain ⟨sid, hsid, ho⟩ := ho
      exact hfin _ _ ho (.delAt d id _ _ _ hlive (hj sid hsid)) (by simp)

theorem Rep.delVar {strict s s' v} (hns : ¬ strict) (h : Rep strict s) (he : DelVarEff v s s') :
    Rep strict s' := by
  cases he with
  | free _ _ hq => exact h.quiet hq
  | unit id b s1 hc hu hq hq' =>
    obtain ⟨d, h1, h2⟩ := h
    have hl := h2.fwd id _ (Or.inr ⟨_, _, hu, rfl⟩)
    have hno : ∀ l : Lit, l.var = v → s.clauseCount l.code = 0 := by
      intro l hl
      have : l.code = 2 * v ∨ l.code = 2 * v + 1 := by
        unfold Lit.var at hl; omega
      rcases this with h | h <;> rw [h]
      · exact hc.1
      · exact hc.2
    refine ⟨{ d with live := Replay.set d.live id none }, run_snoc h1 (by
      rw [hq'.out, List.append_nil]; exact hq.out) (.delRat d id false _ _ hl (by simp) ?_), ?_⟩
    · intro i e hi hlen
      obtain ⟨f, hf, -, hfl⟩ := h2.bwd i e hi hlen
      have key : ∀ l : Lit, l.var = v → l ∉ e := by
        intro l hlv hle
        have h0 := h2.count l
        rw [hno l hlv] at h0
        have := List.countP_eq_zero.1 h0.symm f hf
        rw [hfl] at this
        simp [hle] at this
      exact ⟨key _ (by rw [Lit.var_mk']), key _ (by rw [Lit.var_neg, Lit.var_mk'])⟩
    · have h3 := h2.quiet hq
      refine Link.quiet (o := []) ?_ hq'
      have hdist : ∀ i c', d.live i = some c' → c' ≠ [Lit.mk' v b] → i ≠ id := by
        rintro i c' hi hc' rfl
        rw [hl] at hi
        simp only [Option.some.injEq] at hi
        exact hc' hi.symm
      refine ⟨h3.next, ?_, ?_, ?_, fun hs => absurd hs hns, fun hs => absurd hs hns, h3.asm, h3.count⟩
      · intro i c' hi
        by_cases hie : i = id
        · subst hie; simp only at hi; rw [set_same] at hi; simp at hi
        · simp only at hi; rw [set_ne hie] at hi; exact h3.lt i c' hi
      · rintro i c' (hh | ⟨w, b', hv, rfl⟩)
        · have := h3.fwd i c' (Or.inl hh)
          obtain ⟨e, he, -, hel⟩ := hh
          have hlen := (hq'.wf.ent e (hq'.perm.mem_iff.2 he)).1.len
          simp only
          rw [set_ne (hdist i c' this (by intro h; rw [hel, h] at hlen; simp at hlen))]; exact this
        · unfold upd at hv
          simp only at hv
          split at hv
          · simp at hv
          · rename_i hne
            have := h3.fwd i _ (Or.inr ⟨w, b', hv, rfl⟩)
            simp only
            rw [set_ne (hdist i _ this ?_)]
            · exact this
            · intro h
              simp only [List.cons.injEq, and_true] at h
              have := congrArg Lit.var h
              rw [Lit.var_mk', Lit.var_mk'] at this
              exact hne this
      · intro i c' hi hlc
        by_cases hie : i = id
        · subst hie; simp only at hi; rw [set_same] at hi; simp at hi
        · simp only at hi; rw [set_ne hie] at hi; exact h3.bwd i c' hi hlc

theorem AddEff.prevLits {c s s'} (h : AddEff c s s') : s'.prevLits = s.prevLits := by
  cases h with
  | skipped _ e => rw [e]
  | taut s1 _ _ hq hb => rw [hb.prevLits, hq.prevLits]
  | new s0 s1 id _ _ hq hst hq1 => rw [hq1.prevLits, hst.prevLits, hq.prevLits]
  | irred s0 s1 s2 id _ _ hq hst hq1 hb => rw [hb.prevLits, hq1.prevLits, hst.prevLits, hq.prevLits]
  | dup s0 s1 s2 id _ _ hq hst hq1 hb => rw [hb.prevLits, hq1.prevLits, hst.prevLits, hq.prevLits]

theorem UnitsEff.prevLits {env ls s s'} (h : UnitsEff env ls s s') : s'.prevLits = s.prevLits := by
  induction h with
  | nil => rfl
  | cons l ls s s0 s1 s2 s' id res ids hq hr htr hst hq2 tail ih =>
    rw [ih, hq2.prevLits, hst.prevLits, hq.prevLits]

theorem sorted_step {env s s' st} (h : SSorted s.prevLits) (he : StepEff env st s s') :
    SSorted s'.prevLits := by
  unfold StepEff at he
  split at he
  · rw [he.prevLits]; exact h
  · obtain ⟨s0, s1, s2, id, res, ids, hq, hr, htr, hst, hs2, hq2⟩ := he.run
    rw [hq2.prevLits, hs2]
    split
    · rw [hst.prevLits, hq.prevLits]; exact h
    · exact canonical_ssorted _
  · rw [he.prevLits]; exact h
  · obtain ⟨id, r, s1, o, hd, hw, hu, hsat, hcf, hni, -, has, hout, hpid, hpl, hcc, ho, hq⟩ := he.run
    rw [hq.prevLits, hpl]; simp [SSorted]
  · cases he with
    | free _ _ hq => rw [hq.prevLits]; exact h
    | unit id b s1 _ hu hq hq' => rw [hq'.prevLits]; simp only; rw [hq.prevLits]; exact h
  · rw [he.1.prevLits]; exact h
  · obtain ⟨s0, hq, hq'⟩ := he
    rw [hq'.prevLits]; simp only; rw [hq.prevLits]; exact h
  · obtain ⟨ids, hq, -⟩ := he.run
    rw [hq.prevLits]; exact h
  · obtain ⟨o, hq, -⟩ := he
    rw [hq.prevLits]; exact h

theorem Rep.step {strict env s s' st} (hproc : env.hasProc = true) (hp : Pre s) (hsort : SSorted s.prevLits)
    (hst : strict → ∀ v, st ≠ .deleteVar v) (hasm : SSorted s.assumptions) (h : Rep strict s)
    (he : StepEff env st s s') : Rep strict s' := by
  unfold StepEff at he
  split at he
  · exact h.add he
  · exact h.at hproc he
  · exact h.units hproc he
  · exact h.del hp hsort he
  · exact h.delVar (fun hs => hst hs _ rfl) he
  · obtain ⟨d, h1, h2⟩ := h
    exact ⟨d, run_snoc h1 he.1.out (.model d _), h2.quiet he.1⟩
  · obtain ⟨s0, hq, hq'⟩ := he
    obtain ⟨d, h1, h2⟩ := h.quiet hq
    refine ⟨_, run_snoc h1 hq'.out (.assume d _), ?_⟩
    refine Link.quiet ?_ hq'
    exact ⟨h2.next, h2.lt, h2.fwd, h2.bwd, h2.prev, h2.conf, rfl, h2.count⟩
  · obtain ⟨ids, hq, hr⟩ := he.run
    obtain ⟨d, h1, h2⟩ := h
    refine ⟨d, run_snoc h1 hq.out (.failed d _ _ ?_ ?_), h2.quiet hq⟩
    · rw [h2.asm]
      exact ((isSubsetLoop_spec (canonical_ssorted _) hasm).1 he.sub).1
    · rcases hr with ⟨ht, -⟩ | ⟨-, ids', hr, hi⟩
      · left
        obtain ⟨l, hl, hl'⟩ := (canonical_taut _).1 ht
        exact ⟨l, mem_canonical.2 hl, mem_canonical.2 hl'⟩
      · right
        rw [hi hproc]
        have := refutes_of h2.fwd hr
        rw [List.map_map] at this
        have e : (Lit.neg ∘ Lit.neg) = id := by funext l; simp [Lit.neg_neg]
        rw [e, List.map_id] at this
        exact this
  · obtain ⟨o, hq, ho⟩ := he
    rcases ho with rfl | ⟨v, u, rfl⟩
    · exact h.quiet hq
    · obtain ⟨d, h1, h2⟩ := h
      exact ⟨d, run_snoc h1 hq.out (.userVar d v u), h2.quiet hq⟩

/-- Everything about a history at once. -/
theorem rep_execs {strict env ops} (hproc : env.hasProc = true) : ∀ {F s s' A}, Core F s → SSorted s.prevLits →
    s.assumptions = (copyCanonical A).1 → (strict → NoDeleteVar ops) → Rep strict s →
    execs env ops s = .ok () s' → Rep strict s' := by
  induction ops with
  | nil =>
    intro F s s' A hc hsort ha hn h he
    have he : (EStateM.Result.ok () s : EStateM.Result Err St Unit) = .ok () s' := he
    simp only [EStateM.Result.ok.injEq, true_and] at he
    subst he
    exact h
  | cons op ops ih =>
    intro F s s' A hc hsort ha hn h he
    obtain ⟨s1, h1, h2⟩ := execs_ok he
    have heff := op_ok hc.pre h1
    have hc1 := hc.op heff
    have hn' : strict → NoDeleteVar ops := fun hs v hv => hn hs v (List.mem_cons_of_mem _ hv)
    cases op with
    | add c =>
      exact ih hc1 (by rw [AddEff.prevLits heff]; exact hsort) ((AddEff.asm heff).trans ha) hn' (h.add heff) h2
    | step st =>
      have hq := quiet_step hc.pre
      have hr := Rep.step (strict := strict) hproc (hq.toSame.pre hc.pre) hsort
        (fun hs v hv => hn hs v (by rw [hv]; exact List.mem_cons_self ..))
        (by simp only; rw [ha]; exact canonical_ssorted _) (h.quiet hq) heff
      have hs := sorted_step (s := { s with step := s.step + 1 }) hsort heff
      have ha' := StepEff.asm (s := { s with step := s.step + 1 }) heff
      cases st <;> first | exact ih hc1 hs (ha'.trans ha) hn' hr h2 | exact ih hc1 hs ha' hn' hr h2

end Varisat.Checker
