import Verif.Proof.Solver.Inv
import Mathlib.Tactic.ByContra
/-!
# Assumptions and decisions
-/
namespace Varisat.Solver

variable {α : Type} [LinearOrder α]
variable {F : List (List Lit)} {A : List Lit} {ids : Nat → Nat}

theorem QInv.mono {q : Vsids α} {x : Vars} {p p' : Pt} (h : QInv q x p)
    (hv : ∀ v, x.pres v → p'.value v = none → p.value v = none) : QInv q x p' :=
  ⟨h.wf, h.count, h.pres, fun v h1 h2 => h.all v h1 (hv v h1 h2)⟩

theorem AsmDec.ext {p q : Pt} {ls : List Lit} (h : AsmDec p ls) (hd : q.decisions = p.decisions)
    (ha : ∀ k l, p.At k l → q.At k l) : AsmDec q ls := by
  intro i hi l hl
  unfold Pt.curLevel at hi
  rw [hd] at hi
  obtain ⟨n, h1, h2⟩ := h i hi l hl
  exact ⟨n, by rw [hd]; exact h1, ha n l h2⟩

theorem SInv.log {s : St α} (h : SInv F A ids s) (L : List ProofStep) : SInv F A ids { s with log := L } :=
  ⟨h.v, h.q, h.fl, h.asm, h.core, h.dec, h.as⟩

/-- `propagate` keeps the invariant. -/
theorem SInv.propagate {s : St α} (h : SInv F A ids s) (h2 : Prop2 s.bins.byLit s.db s.p) :
    ∃ s' o, s.propagate = .ok (s', o) ∧ SInv F A ids s' ∧ PExt s.p s'.p ∧
      s' = { s with p := s'.p, w := s'.w, db := { s.db with lits := s'.db.lits } } ∧
      (∀ c, (s'.db.lits c).Perm (s.db.lits c)) ∧
      (o = none → Prop2 s'.bins.byLit s'.db s'.p ∧ s'.p.qhead = s'.p.trail.length) ∧
      ∀ c, o = some c → CRes s'.vars.pres (cls s'.bins.byLit s'.db) s'.p c := by
  obtain ⟨q, ws, lits, o, h3, h4, h5, h6, h7, h8⟩ := St.propagate_ok h.core h2 h.lt
  refine ⟨_, o, h3, ⟨h.v, h.q.mono ?_, h.fl, h.asm, h4, h.dec.ext ?_ ?_, h.as⟩, h5, rfl, h6, h7, h8⟩
  · intro v _ hn
    by_contra hne
    rw [h5.ext.value (p := { s.p with qhead := q.qhead }) hne] at hn
    exact hne hn
  · exact h5.ext.decisions
  · intro k l hk; exact h5.ext.at_ (p := { s.p with qhead := q.qhead }) hk

namespace St

/-! ### Assumptions -/

theorem swapRemove_length {ls : List Lit} {i : Nat} (h : i < ls.length) :
    (swapRemove ls i).length + 1 = ls.length := by
  unfold swapRemove
  cases hl : ls.getLast? with
  | none => rw [List.getLast?_eq_none_iff] at hl; subst hl; simp at h
  | some l => simp only [List.length_dropLast, List.length_set]; omega

theorem swapRemove_get {ls : List Lit} {i j : Nat} (h : i < ls.length) (hj : j < i) :
    (swapRemove ls i)[j]? = ls[j]? := by
  unfold swapRemove
  cases hl : ls.getLast? with
  | none => rfl
  | some l =>
    simp only
    rw [List.getElem?_dropLast, List.length_set, if_pos (by omega), List.getElem?_set_ne (by omega)]

theorem swapRemove_mem {ls : List Lit} {i : Nat} (h : i < ls.length) {m : Lit} (hm : m ∈ swapRemove ls i) :
    m ∈ ls := by
  unfold swapRemove at hm
  cases hl : ls.getLast? with
  | none => rw [hl] at hm; exact hm
  | some l =>
    rw [hl] at hm
    have := List.dropLast_subset _ hm
    rcases List.mem_or_eq_of_mem_set this with h1 | rfl
    · exact h1
    · exact List.mem_of_getLast? hl

theorem mem_swapRemove {ls : List Lit} {i : Nat} (h : i < ls.length) {m : Lit} (hm : m ∈ ls) :
    m ∈ swapRemove ls i ∨ ls[i]? = some m := by
  obtain ⟨j, hj⟩ := List.mem_iff_getElem?.1 hm
  by_cases hij : j = i
  · subst hij; exact .inr hj
  left
  have hjl := (List.getElem?_eq_some_iff.1 hj).1
  unfold swapRemove
  cases hl : ls.getLast? with
  | none => exact hm
  | some l =>
    simp only
    rw [List.mem_iff_getElem?]
    by_cases hlast : j + 1 = ls.length
    · refine ⟨i, ?_⟩
      rw [List.getElem?_dropLast, List.length_set, if_pos (by omega), List.getElem?_set_self h]
      rw [List.getLast?_eq_getElem?, show ls.length - 1 = j by omega, hj] at hl
      exact hl.symm
    · refine ⟨j, ?_⟩
      rw [List.getElem?_dropLast, List.length_set, if_pos (by omega), List.getElem?_set_ne (by omega)]
      exact hj

theorem addLit_core (ls : List Lit) (f : Fail) : (ls.foldl Fail.addLit f).core = f.core := by
  induction ls generalizing f with
  | nil => rfl
  | cons l ls ih =>
    rw [List.foldl_cons, ih]
    unfold Fail.addLit; split <;> rfl

/-- The failed core consists of the failed assumption and decisions. -/
theorem failLoop_core (p : Pt) (lits : Nat → List Lit) : ∀ (tr : List Lit) (f : Fail),
    ∀ l ∈ (failLoop p lits tr f).core, l ∈ f.core ∨ (l ∈ tr ∧ p.reason l.var = .unit ∧ 0 < p.level l.var)
  | [], f, l, h => .inl h
  | x :: tr, f, l, h => by
    rw [failLoop] at h
    split at h
    · simp only at h
      split at h
      · rename_i hu
        split at h
        · rename_i hlv
          split at h
          · simp only [List.mem_append, List.mem_singleton] at h
            rcases h with h | rfl
            · exact .inl h
            · exact .inr ⟨by simp, hu, hlv⟩
          · rcases failLoop_core p lits tr _ l h with h | ⟨h1, h2⟩
            · simp only [List.mem_append, List.mem_singleton] at h
              rcases h with h | rfl
              · exact .inl h
              · exact .inr ⟨by simp, hu, hlv⟩
            · exact .inr ⟨by simp [h1], h2⟩
        · split at h
          · exact .inl h
          · rcases failLoop_core p lits tr _ l h with h | ⟨h1, h2⟩
            · exact .inl h
            · exact .inr ⟨by simp [h1], h2⟩
      · split at h
        · rw [addLit_core] at h; exact .inl h
        · rcases failLoop_core p lits tr _ l h with h | ⟨h1, h2⟩
          · rw [addLit_core] at h; exact .inl h
          · exact .inr ⟨by simp [h1], h2⟩
    · rcases failLoop_core p lits tr _ l h with h | ⟨h1, h2⟩
      · exact .inl h
      · exact .inr ⟨by simp [h1], h2⟩

end St

/-- A decision in the levels of the assumptions is an assumption. -/
theorem SInv.dec_asm {s : St α} (h : SInv F A ids s) (hle : s.p.curLevel ≤ s.asm.lits.length) {k : Nat} {l : Lit}
    (hk : s.p.At k l) (hr : k ∈ s.p.decisions) : l ∈ s.asm.lits := by
  obtain ⟨i, hi⟩ := List.mem_iff_getElem?.1 hr
  have hil := (List.getElem?_eq_some_iff.1 hi).1
  unfold Pt.curLevel at hle
  have hl2 : i < s.asm.lits.length := by omega
  obtain ⟨n, h1, h2⟩ := h.dec i hil _ (List.getElem?_eq_getElem hl2)
  rw [hi] at h1
  obtain rfl : k = n := by simpa using h1
  have : some l = some s.asm.lits[i] := by rw [← hk, h2]
  rw [Option.some.inj this]
  exact List.getElem_mem hl2

/-- With all assumptions of the current levels true, everything assigned is true. -/
theorem SInv.implied {s : St α} (h : SInv F A ids s) (hle : s.p.curLevel ≤ s.asm.lits.length) {τ : Asg}
    (hτ : cnfSat τ F) {m : Nat}
    (hm : s.p.curLevel ≤ m)
    (ha : ∀ i, i < m → ∀ l, s.asm.lits[i]? = some l → VHolds s.vars ids τ l) {l : Lit} (ht : s.p.isTrue l = true) :
    l.holds (lift s.vars s.p (fun g => τ (ids g))) := by
  obtain ⟨a, b, c⟩ := h.core.s1 τ hτ
  by_cases htr : ∃ k, s.p.At k l
  · obtain ⟨k, hk⟩ := htr
    refine trail_implied h.core.c a ?_ k ?_ k (Nat.le_refl _) l hk
    · intro j y hj _ hl
      exact b y ⟨h.core.c.tr.at_true hj, .inl ⟨j, hj, hl⟩⟩
    · intro j y hj hjd _
      obtain ⟨i, hi⟩ := List.mem_iff_getElem?.1 hjd
      have hil := (List.getElem?_eq_some_iff.1 hi).1
      have hil' : i < s.p.curLevel := hil
      have hl2 : i < s.asm.lits.length := by omega
      have hgi := List.getElem?_eq_getElem hl2
      obtain ⟨n, h1, h2⟩ := h.dec i hil' _ hgi
      rw [hi] at h1
      obtain rfl : j = n := by simpa using h1
      have : some y = some s.asm.lits[i] := by rw [← hj, h2]
      rw [Option.some.inj this]
      rw [← vholds_iff (h.asm.pres _ (List.getElem_mem hl2))]
      exact ha i (by omega) _ hgi
  · refine b l ⟨ht, .inr ?_⟩
    have hv : s.p.value l.var ≠ none := by rw [Pt.isTrue_iff.1 ht]; simp
    rcases h.core.c.tr.off _ hv with ⟨y, hy, hyv⟩ | h1
    · exfalso
      have h2 := h.core.c.tr.val y hy
      rw [hyv, Pt.isTrue_iff.1 ht] at h2
      have : l = y := Lit.ext_var_neg hyv.symm (by cases h3 : l.isNeg <;> cases h4 : y.isNeg <;> simp_all)
      subst this
      exact htr (Pt.At.of_mem hy)
    · exact h1

/-- What `enqueue_assumption` leaves alone. -/
structure EnqSame (s s' : St α) : Prop where
  bins : s'.bins = s.bins
  w : s'.w = s.w
  db : s'.db = s.db
  cbump : s'.cbump = s.cbump
  vsids : s'.vsids = s.vsids
  vflags : s'.vflags = s.vflags
  vars : s'.vars = s.vars
  model : s'.model = s.model
  sat : s'.sat = s.sat
  formulaEmpty : s'.formulaEmpty = s.formulaEmpty
  sched : s'.sched = s.sched

theorem EnqSame.refl (s : St α) : EnqSame s s := ⟨rfl, rfl, rfl, rfl, rfl, rfl, rfl, rfl, rfl, rfl, rfl⟩

/-- The failed core consists of assumptions. -/
theorem SInv.fail_mem {s : St α} (h : SInv F A ids s) {l : Lit} (hl : s.asm.lits[s.p.curLevel]? = some l) :
    ∀ m ∈ (St.failLoop s.p s.db.lits s.p.trail.reverse { core := [l], flags := put s.tmp l.var true, count := 1 }).core,
      m ∈ s.asm.lits := by
  have hlt := (List.getElem?_eq_some_iff.1 hl).1
  have hlm : l ∈ s.asm.lits := List.mem_of_getElem? hl
  have hcore := St.failLoop_core s.p s.db.lits s.p.trail.reverse
    { core := [l], flags := put s.tmp l.var true, count := 1 }
  intro m hm
  rcases hcore m hm with hm | ⟨h1, h2, h3⟩
  · simp only [List.mem_singleton] at hm; rw [hm]; exact hlm
  · rw [List.mem_reverse] at h1
    obtain ⟨k, hk⟩ := Pt.At.of_mem h1
    have hr := h.core.c.rs k m hk
    unfold ReasonAt at hr
    simp only [h2] at hr
    rcases hr with hr | hr
    · exact h.dec_asm (by omega) hk hr
    · rw [h.core.c.tr.level k m hk] at h3; omega

/-- `analyze_assumption_conflict` does not panic. -/
theorem SInv.analyzeAssumption {s : St α} (h : SInv F A ids s) {l : Lit}
    (hl : s.asm.lits[s.p.curLevel]? = some l) :
    ∃ s', s.analyzeAssumption l = .ok s' ∧ SInv F A ids s' ∧ EnqSame s s' ∧ s'.p = s.p := by
  have hmem := h.fail_mem hl
  unfold St.analyzeAssumption
  simp only
  generalize St.failLoop s.p s.db.lits s.p.trail.reverse
    { core := [l], flags := put s.tmp l.var true, count := 1 } = f at *
  obtain ⟨us, hus⟩ := mapLits_ok (f := s.userFromSolver?) (c := f.core) (by
    intro m hm
    obtain ⟨u, hu⟩ := h.asm.user h.v m (hmem m hm)
    unfold St.userFromSolver?
    rw [hu]; rfl)
  rw [hus]
  simp only
  obtain ⟨L, hL⟩ := St.emit_ok (s := { s with
      tmp := f.flags
      asm := { s.asm with failedCore := f.core, userFailedCore := us } })
    (x := .failedAssumptions f.core f.hashes.reverse)
    (fun m hm => h.asm.pres m (hmem m hm))
  exact ⟨_, hL, ⟨h.v, h.q, h.fl, h.asm, h.core, h.dec, h.as⟩, ⟨rfl, rfl, rfl, rfl, rfl, rfl, rfl, rfl, rfl, rfl, rfl⟩, rfl⟩

theorem curLevel_decide {p : Pt} {m : Lit} {r : Reason} : (p.newLevel.enqueue m r).curLevel = p.curLevel + 1 := by
  simp [Pt.curLevel, Pt.newLevel]

theorem L0.decide {p : Pt} (hp : p.Ok) (h : L0 p) (hq : p.qhead = p.trail.length) (m : Lit) :
    L0 (p.newLevel.enqueue m .unit) := by
  right
  show (p.decisions ++ [p.trail.length])[0]? = some 0
  rcases h with ⟨h1, h2⟩ | h1
  · rw [h1]; show some p.trail.length = some 0; rw [← hq, h2]
  · cases hd : p.decisions with
    | nil => rw [hd] at h1; simp at h1
    | cons d ds => rw [hd] at h1; simpa using h1

/-- An implied assumption may be left out. -/
theorem SInv.dropAssumption {s : St α} (h : SInv F A ids s) {l : Lit} (hl : s.asm.lits[s.p.curLevel]? = some l)
    (hv : s.p.isTrue l = true) :
    SInv F A ids { s with asm := { s.asm with lits := St.swapRemove s.asm.lits s.p.curLevel } } := by
  have hlt := (List.getElem?_eq_some_iff.1 hl).1
  have hpr := h.asm.pres l (List.mem_of_getElem? hl)
  refine ⟨h.v, h.q, h.fl, fun m hm => h.asm m (St.swapRemove_mem hlt hm), h.core, ?_, ?_⟩
  · intro i hi m hm
    apply h.dec i hi m
    rw [← St.swapRemove_get hlt hi]; exact hm
  · refine ⟨?_, fun m hm => h.as.mem m (St.swapRemove_mem hlt hm)⟩
    intro τ hτ
    rw [← h.as.iff τ hτ]
    constructor
    · intro hA m hm
      rcases St.mem_swapRemove hlt hm with h3 | h3
      · exact hA m h3
      · rw [hl] at h3
        obtain rfl : l = m := by simpa using h3
        rw [vholds_iff hpr]
        refine h.implied (by omega) hτ (Nat.le_refl _) ?_ hv
        intro i hi y hy
        apply hA
        have hy2 := St.swapRemove_get hlt hi
        rw [hy] at hy2
        exact List.mem_of_getElem? hy2
    · intro hA m hm
      exact hA m (St.swapRemove_mem hlt hm)

/-- The loop of `enqueue_assumption`. -/
theorem SInv.enqLoop : ∀ (n : Nat) {s : St α}, SInv F A ids s → Prop2 s.bins.byLit s.db s.p →
    s.p.qhead = s.p.trail.length → L0 s.p → s.asm.lits.length < n →
    ∃ s' o, St.enqLoop n s = .ok (s', o) ∧ SInv F A ids s' ∧ EnqSame s s' ∧ Prop2 s'.bins.byLit s'.db s'.p ∧ L0 s'.p ∧
      match o with
      | .done => s'.p = s.p ∧ s'.asm.lits.length ≤ s'.p.curLevel
      | .enqueued => s'.p.curLevel = s.p.curLevel + 1
      | .conflict => UnsatUnder F A
  | 0, _, _, _, _, _, h => by omega
  | n + 1, s, h, h2, hq, hl0, hn => by
    rw [St.enqLoop]
    simp only
    cases hl : s.asm.lits[s.p.curLevel]? with
    | none =>
      exact ⟨s, .done, rfl, h, EnqSame.refl s, h2, hl0, rfl, List.getElem?_eq_none_iff.1 hl⟩
    | some l =>
      have hlt := (List.getElem?_eq_some_iff.1 hl).1
      have hlm : l ∈ s.asm.lits := List.mem_of_getElem? hl
      have hpr := h.asm.pres l hlm
      simp only
      cases hv : s.p.litValue l with
      | none =>
        rw [Pt.litValue_none] at hv
        refine ⟨_, .enqueued, rfl, ⟨h.v, h.q.mono ?_, h.fl, h.asm, h.core.decide hv hpr hq, ?_, h.as⟩,
          ⟨rfl, rfl, rfl, rfl, rfl, rfl, rfl, rfl, rfl, rfl, rfl⟩, h2.decide h.core.c.tr hv, hl0.decide h.core.c.tr hq l,
          curLevel_decide⟩
        · intro v _ hn
          by_cases hvl : v = l.var
          · rw [hvl]; exact hv
          · rw [← hn]; exact (Pt.enqueue_value_ne (p := s.p.newLevel) hvl).symm
        · intro i hi m hm
          simp only [curLevel_decide] at hi
          by_cases hil : i < s.p.curLevel
          · obtain ⟨k, h3, h4⟩ := h.dec i hil m hm
            refine ⟨k, ?_, Pt.at_decide.2 (.inl h4)⟩
            show (s.p.decisions ++ [s.p.trail.length])[i]? = _
            rw [List.getElem?_append_left hil]; exact h3
          · obtain rfl : i = s.p.curLevel := by omega
            refine ⟨s.p.trail.length, ?_, Pt.at_decide.2 (.inr ⟨rfl, ?_⟩)⟩
            · show (s.p.decisions ++ [s.p.trail.length])[s.p.decisions.length]? = _
              simp
            · have hm : s.asm.lits[s.p.curLevel]? = some m := hm
              rw [hl] at hm; exact (Option.some.inj hm).symm
      | some b =>
        cases b with
        | false =>
          simp only
          obtain ⟨s', e1, e2, e3, e4⟩ := h.analyzeAssumption hl
          rw [e1]
          refine ⟨s', .conflict, rfl, e2, e3, by rw [e3.bins, e3.db, e4]; exact h2, by rw [e4]; exact hl0, ?_⟩
          intro τ hτ hA
          rw [← h.as.iff τ hτ] at hA
          rw [Pt.litValue_false, ← Pt.isTrue_neg] at hv
          have := h.implied (by omega) hτ (Nat.le_refl _)
            (fun i _ m hm => hA m (List.mem_of_getElem? hm)) hv
          rw [Lit.holds_neg, ← vholds_iff hpr] at this
          exact this (hA l hlm)
        | true =>
          simp only
          rw [Pt.litValue_true] at hv
          have hs' := h.dropAssumption hl hv
          obtain ⟨s', o, e1, e2, e3, e4, e5, e6⟩ := SInv.enqLoop n hs' h2 hq hl0 (by
            have := St.swapRemove_length hlt
            show (St.swapRemove s.asm.lits s.p.curLevel).length < n
            omega)
          refine ⟨s', o, e1, e2, ⟨e3.bins, e3.w, e3.db, e3.cbump, e3.vsids, e3.vflags, e3.vars, e3.model, e3.sat,
            e3.formulaEmpty, e3.sched⟩, e4, e5, e6⟩

theorem SInv.enqueueAssumption {s : St α} (h : SInv F A ids s) (h2 : Prop2 s.bins.byLit s.db s.p)
    (hq : s.p.qhead = s.p.trail.length) (hl0 : L0 s.p) :
    ∃ s' o, s.enqueueAssumption = .ok (s', o) ∧ SInv F A ids s' ∧ EnqSame s s' ∧ Prop2 s'.bins.byLit s'.db s'.p ∧ L0 s'.p ∧
      match o with
      | .done => s'.p = s.p ∧ s'.asm.lits.length ≤ s'.p.curLevel
      | .enqueued => s'.p.curLevel = s.p.curLevel + 1
      | .conflict => UnsatUnder F A :=
  SInv.enqLoop _ h h2 hq hl0 (Nat.lt_succ_self _)

/-! ### Decisions -/

theorem findVar_ok {x : Vars} {p : Pt} : ∀ (n : Nat) {q : Vsids α}, QInv q x p → q.len < n →
    match St.findVar p n q with
    | (none, q') => QInv q' x p ∧ ∀ v, x.pres v → p.value v ≠ none
    | (some u, q') => x.pres u ∧ p.value u = none ∧ Vsids.WF q' ∧ q'.count = x.gfs.len ∧
        (∀ v, q'.Avail v → x.pres v) ∧ ∀ v, v ≠ u → x.pres v → p.value v = none → q'.Avail v
  | 0, _, _, h => by omega
  | n + 1, q, h, hn => by
    have hw := Vsids.next_wf h.wf
    rw [St.findVar]
    cases hx : q.next.1 with
    | none =>
      rw [hx] at hw
      simp only at hw ⊢
      rw [hw.2.2.2]
      exact ⟨h, fun v h1 h2 => hw.2.2.1 v (h.all v h1 h2)⟩
    | some u =>
      rw [hx] at hw
      obtain ⟨w1, w2, w3, w4, w5⟩ := hw
      simp only
      by_cases hu : p.value u = none
      · rw [if_pos hu]
        refine ⟨h.pres u w3, hu, w1, w2.trans h.count, fun v hv => h.pres v ((w5 v).1 hv).2, fun v h1 h2 h3 => ?_⟩
        exact (w5 v).2 ⟨h1, h.all v h2 h3⟩
      · rw [if_neg hu]
        refine findVar_ok n ⟨w1, w2.trans h.count, fun v hv => h.pres v ((w5 v).1 hv).2, fun v h1 h2 => ?_⟩ (by omega)
        refine (w5 v).2 ⟨?_, h.all v h1 h2⟩
        rintro rfl; exact hu h2

/-- `make_decision`. -/
theorem SInv.makeDecision {s : St α} (h : SInv F A ids s) (h2 : Prop2 s.bins.byLit s.db s.p)
    (hq : s.p.qhead = s.p.trail.length) (hl0 : L0 s.p) (hasm : s.asm.lits.length ≤ s.p.curLevel) :
    ∃ s' b, s.makeDecision = (s', b) ∧ SInv F A ids s' ∧ Prop2 s'.bins.byLit s'.db s'.p ∧ L0 s'.p ∧
      s' = { s with p := s'.p, vsids := s'.vsids } ∧
      (b = true → s'.p.curLevel = s.p.curLevel + 1) ∧
      (b = false → s'.p = s.p ∧ ∀ v, s.vars.pres v → s.p.value v ≠ none) := by
  have hf := findVar_ok (s.vsids.len + 1) h.q (Nat.lt_succ_self _)
  unfold St.makeDecision
  generalize St.findVar s.p (s.vsids.len + 1) s.vsids = r at *
  obtain ⟨o, q'⟩ := r
  cases o with
  | none =>
    simp only at hf ⊢
    exact ⟨_, _, rfl, ⟨h.v, hf.1, h.fl, h.asm, h.core, h.dec, h.as⟩, h2, hl0, rfl, by simp, fun _ => ⟨rfl, hf.2⟩⟩
  | some u =>
    obtain ⟨f1, f2, f3, f4, f5, f6⟩ := hf
    simp only
    have hu : s.p.value (Lit.mk' u (s.p.last u)).var = none := by rw [Lit.var_mk']; exact f2
    have hpr : s.vars.pres (Lit.mk' u (s.p.last u)).var := by rw [Lit.var_mk']; exact f1
    refine ⟨_, _, rfl, ⟨h.v, ⟨f3, f4, f5, ?_⟩, h.fl, h.asm, h.core.decide hu hpr hq, ?_, h.as⟩,
      h2.decide h.core.c.tr hu, hl0.decide h.core.c.tr hq _, rfl, fun _ => curLevel_decide, by simp⟩
    · intro v hv hn
      have hvu : v ≠ u := by
        rintro rfl
        have : (s.p.newLevel.enqueue (Lit.mk' v (s.p.last v)) .unit).value (Lit.mk' v (s.p.last v)).var ≠ none := by
          rw [Pt.enqueue_value_self]; simp
        rw [Lit.var_mk'] at this
        exact this hn
      refine f6 v hvu hv ?_
      rw [← hn]
      exact (Pt.enqueue_value_ne (p := s.p.newLevel) (by rw [Lit.var_mk']; exact hvu)).symm
    · intro i hi m hm
      have hm : s.asm.lits[i]? = some m := hm
      have hil : i < s.p.curLevel := by
        have := (List.getElem?_eq_some_iff.1 hm).1
        omega
      obtain ⟨k, h3, h4⟩ := h.dec i hil m hm
      refine ⟨k, ?_, Pt.at_decide.2 (.inl h4)⟩
      show (s.p.decisions ++ [s.p.trail.length])[i]? = _
      rw [List.getElem?_append_left hil]; exact h3

end Varisat.Solver
