import Verif.Proof.Solver.Entail
import Verif.Proof.Solver.SampleSearch
/-!
# C31 Propagation is sound and complete
-/
namespace Varisat.Solver
variable {α : Type} [LinearOrder α]

/-- Propagation only appends to the trail, and every literal on the trail follows from the clauses and
the decisions. Clauses are only permuted. It never panics. -/
theorem C31.sound {s : St α} (h : Search s .ready) : ∃ s' o, s.propagate = .ok (s', o) ∧
    s.p.trail <+: s'.p.trail ∧ decisionLits s' = decisionLits s ∧
    (∀ l ∈ s'.p.trail, ∀ ν, DbSat s ν → (∀ d ∈ decisionLits s, d.holds ν) → l.holds ν) ∧
    s'.bins = s.bins ∧ s'.db = { s.db with lits := s'.db.lits } ∧ ∀ c, (s'.db.lits c).Perm (s.db.lits c) := by
  obtain ⟨F, A, ids, h1, h2, _, h3, h4⟩ := h.inv
  obtain ⟨s', o, e1, e2, e3, e4, e5, e6, e7⟩ := h1.propagate h2
  obtain ⟨t, ht⟩ := e3.ext.trail
  have ht : s'.p.trail = s.p.trail ++ t := ht
  have hdec : s'.p.decisions = s.p.decisions := e3.ext.decisions
  have hbin : s'.bins = s.bins := by rw [e4]
  have hdb : s'.db = { s.db with lits := s'.db.lits } := by
    conv_lhs => rw [e4]
  refine ⟨s', o, e1, ⟨t, ht.symm⟩, ?_, ?_, hbin, hdb, e5⟩
  · unfold decisionLits
    rw [hdec]
    apply List.filterMap_congr
    intro d hd
    rw [ht, List.getElem?_append_left (h1.core.c.tr.dlt d hd)]
  · intro l hl ν hν hd
    have hm := (dbSat_iff h1.core.c.tr ν).1 hν
    have hsat : (cls s'.bins.byLit s'.db).Sat ν := by
      rw [hbin]
      refine ⟨hm.sat.bin, fun c hc => ?_⟩
      have hc' : s.db.Live c := by
        unfold cls at hc
        rw [hdb] at hc
        exact hc
      obtain ⟨m, k1, k2⟩ := hm.sat.long c hc'
      exact ⟨m, (e5 c).mem_iff.2 k1, k2⟩
    obtain ⟨k, hk⟩ := Pt.At.of_mem hl
    refine implied_at e2.core.c hsat (fun j m hj hr => ?_) k l hk
    have hj0 : s.p.At j m := e3.ext.unit hj hr
    have hv : s.p.value m.var ≠ none := by rw [h1.core.c.tr.val m hj0.mem]; simp
    have hnode : s'.p.node m.var = s.p.node m.var := e3.ext.node hv
    have hr0 : s.p.reason m.var = .unit := by unfold Pt.reason at hr ⊢; rw [← hnode]; exact hr
    have hra := h1.core.c.rs j m hj0
    unfold ReasonAt at hra
    rw [hr0] at hra
    rcases hra with hra | hra
    · exact hd m (List.mem_filterMap.2 ⟨j, hra, hj0⟩)
    · exact hm.root m ⟨h1.core.c.tr.at_true hj0, .inl ⟨j, hj0, hra⟩⟩

/-- If propagation ends without conflict, every clause is satisfied or has two unassigned literals: no
clause is falsified, and none has a single literal left. -/
theorem C31.complete {s s' : St α} (h : Search s .ready) (hp : s.propagate = .ok (s', none)) {c : List Lit}
    (hc : InDb s' c) : (∃ l ∈ c, s'.p.isTrue l = true) ∨
      ∃ l m, l ∈ c ∧ m ∈ c ∧ l ≠ m ∧ s'.p.value l.var = none ∧ s'.p.value m.var = none := by
  obtain ⟨F, A, ids, h1, ⟨h2, h3⟩, _⟩ := (h.propagate hp).inv
  obtain ⟨k1, k2⟩ := h1.core.c.complete h2.b h2.w h3
  cases hc with
  | bin l m hm =>
    by_cases hl : s'.p.isTrue l = true
    · exact .inl ⟨m, by simp, k1 l m hm hl⟩
    · by_cases hln : s'.p.isTrue l.neg = true
      · exact .inl ⟨l.neg, by simp, hln⟩
      · by_cases hmt : s'.p.isTrue m = true
        · exact .inl ⟨m, by simp, hmt⟩
        · have hne : l.neg ≠ m := fun he => h1.core.c.binNe l m hm (by rw [← he]; simp)
          have hunk : ∀ x : Lit, ¬ s'.p.isTrue x = true → ¬ s'.p.isTrue x.neg = true → s'.p.value x.var = none := by
            intro x hx hx'
            rw [Pt.isTrue_iff] at hx hx'
            cases hv : s'.p.value x.var with
            | none => rfl
            | some b =>
              exfalso
              rw [hv] at hx
              rw [show x.neg.var = x.var by simp, hv] at hx'
              cases b <;> cases hn : x.isNeg <;> simp [hn] at hx hx'
          refine .inr ⟨l.neg, m, by simp, by simp, hne, ?_, ?_⟩
          · exact hunk l.neg hln (by simpa using hl)
          · refine hunk m hmt (fun hmn => hln ?_)
            exact k1 m.neg l.neg (h1.core.c.binSym l m hm) hmn
  | long c hc hd => exact k2 c ⟨hc, hd⟩

/-- A conflict is a clause of the database with all literals false. -/
theorem C31.conflict {s s' : St α} {c : Conflict} (h : Search s .ready) (hp : s.propagate = .ok (s', some c)) :
    (∃ d, InDb s' d ∧ d.Perm (c.lits s'.db.lits)) ∧ ∀ l ∈ c.lits s'.db.lits, s'.p.isFalse l = true := by
  obtain ⟨F, A, ids, h1, h2, _⟩ := (h.conflict hp).inv
  refine ⟨?_, h2.false_⟩
  have hin := h2.isIn
  cases c with
  | binary a b =>
    refine ⟨_, .bin b.neg a hin, ?_⟩
    simp only [Conflict.lits, Lit.neg_neg]
    exact List.Perm.swap ..
  | long c => exact ⟨_, .long c hin.1 hin.2, .refl _⟩

/-- All steps of the loop of `solve` stay within the states considered here. -/
theorem C31.reach {s s' : St α} {e : Env α} {b : Bool} (h : Search s .ready)
    (hs : s.scheduleStep e = .ok (s', b)) (hu : s'.sat = .unknown) : Search s' .ready := by
  obtain ⟨F, A, ids, _, _, _, _, h4⟩ := h.inv
  obtain ⟨rfl, ⟨_, k⟩ | ⟨t, k, rfl⟩⟩ := h.scheduleStep h4 hs
  · exact k
  · exact absurd hu k.sat

/-- After the decision `¬1`, the clauses `1 ∨ 2`, `1 ∨ ¬2 ∨ 3` assign `2` and `3`. -/
example : ∃ s : St Nat, Search s .ready ∧ s.p.trail = [Lit.fromDimacs (-1)] ∧
    ∃ s', s.propagate = .ok (s', none) ∧ s'.p.trail = [-1, 2, 3].map Lit.fromDimacs := by
  obtain ⟨s, ph, h1, h2⟩ := Sample.peek_search
    (f := fun s ph => (match ph with | .ready => true | _ => false, s.p.trail,
      match s.propagate with | .ok (s', none) => s'.p.trail | _ => []))
    (ops := [Sample.cl [1, 2], Sample.cl [1, -2, 3]]) (ms := [.propagate, .simplify, .decision])
    (x := (true, [Lit.fromDimacs (-1)], [-1, 2, 3].map Lit.fromDimacs)) (by decide +kernel)
  simp only [Prod.mk.injEq] at h2
  obtain ⟨h3, h4, h5⟩ := h2
  cases ph with
  | ready =>
    refine ⟨s, h1, h4, ?_⟩
    split at h5
    · rename_i s' hp; exact ⟨s', hp, h5⟩
    · cases h5
  | _ => cases h3

/-- With the clause `1 ∨ ¬2 ∨ ¬3` in addition there is a conflict. -/
example : ∃ s s' : St Nat, ∃ c, Search s .ready ∧ s.propagate = .ok (s', some c) ∧ 0 < s'.p.curLevel := by
  obtain ⟨s, ph, h1, h2⟩ := Sample.peek_search
    (f := fun s ph => (match ph with | .ready => true | _ => false,
      match s.propagate with | .ok (s', some _) => s'.p.curLevel | _ => 0))
    (ops := [Sample.cl [1, 2], Sample.cl [1, -2, 3], Sample.cl [1, -2, -3]]) (ms := [.propagate, .simplify, .decision])
    (x := (true, 1)) (by decide +kernel)
  simp only [Prod.mk.injEq] at h2
  obtain ⟨h3, h5⟩ := h2
  cases ph with
  | ready =>
    split at h5
    · rename_i s' c hp; exact ⟨s, s', c, h1, hp, by omega⟩
    · cases h5
  | _ => cases h3

end Varisat.Solver
