import Verif.Proof.Solver.Entail
import Verif.Proof.Solver.SampleSearch
/-!
# C30 Clause minimisation preserves implication
-/
namespace Varisat.Solver
variable {α : Type} [LinearOrder α]

/-- The parts of the analysis of a conflict: `a` is the state after the walk along the trail, with the
clause before minimisation, `b` the state after minimisation; the result is `b`'s clause with another
literal in second position. -/
structure Analysed (e : Env α) (s : St α) (c : Conflict) (a b : An α) (L : Learned α) : Prop where
  walk : An.trailLoop e s.p s.db.lits s.p.trail.reverse (walkStart e s.p s.db.lits s.vflags s.vsids c) = some a
  min : An.minimize s.p s.db.lits (s.varCount + 1) a = some b
  res : analyze e s.p s.db.lits s.vflags s.vsids (s.varCount + 1) c = .ok L
  clause : L.clause = (An.secondLit s.p b.clause).1

/-- Minimisation keeps a sublist of the literals and the first literal, and the clause after it follows
from the database as the clause before does. The learned clause is a permutation of it with the same
first literal. -/
theorem C30.minimise {s : St α} {c : Conflict} (h : Search s (.conflict c)) (hc : 0 < s.p.curLevel) (e : Env α) :
    ∃ a b L, Analysed e s c a b L ∧ b.clause.Sublist a.clause ∧ b.clause.head? = a.clause.head? ∧
      a.clause ≠ [] ∧ Entails s a.clause ∧ Entails s b.clause ∧ L.clause.Perm b.clause ∧
      L.clause.head? = a.clause.head? := by
  obtain ⟨F, A, ids, h1, h2, _⟩ := h.inv
  have hp := h1.core.c.tr
  obtain ⟨a, u, rest, e1, hw⟩ := walk_ok (e := e) h1.core.c h2 hc h1.fl h1.q.wf
  obtain ⟨b, rest', m1, m2, m3, m4, m5, m6, m7⟩ := minimize_ok h1.core.c (fuel := s.varCount + 1)
    (Nat.le_succ_of_le (hp.length_le (fun l hl => h1.lt _ (h1.core.c.pres l hl)))) hw
  have e1' : An.trailLoop e s.p s.db.lits s.p.trail.reverse (walkStart e s.p s.db.lits s.vflags s.vsids c) = some a := e1
  have m1' : An.minimize s.p s.db.lits (s.varCount + 1) a = some b := m1
  have hsec : (An.secondLit s.p b.clause).1.Perm b.clause ∧ (An.secondLit s.p b.clause).1.head? = b.clause.head? := by
    rw [m2]
    cases rest' with
    | nil => exact ⟨.refl _, rfl⟩
    | cons l1 ls =>
      obtain ⟨_, s2, _⟩ := pickSecond_spec s.p l1 ls
      exact ⟨List.Perm.cons u s2, rfl⟩
  refine ⟨a, b, ⟨(An.secondLit s.p b.clause).1, (An.secondLit s.p b.clause).2, b.involved, b.orderHashes,
      b.toClean.foldl (fun f v => put f v false) b.flags, b.vsids.decay e.ar⟩,
    ⟨e1', m1', ?_, rfl⟩, ?_, ?_, ?_, fun ν hν => hw.implied ν ((dbSat_iff hp ν).1 hν),
    fun ν hν => m4 ν ((dbSat_iff hp ν).1 hν), hsec.1, ?_⟩
  · unfold analyze
    simp only
    rw [if_neg (by omega)]
    unfold walkStart at e1'
    simp only at e1'
    rw [e1']
    simp only
    rw [m1']
  · rw [m2, hw.eq]; exact m3.cons_cons u
  · rw [m2, hw.eq]; rfl
  · rw [hw.eq]; simp
  · rw [hw.eq]; rw [hsec.2, m2]; rfl

/-- With any other filter in place of the levels of the clause the result is a sublist and still follows:
the filter has no influence on soundness. -/
theorem C30.any_filter {s : St α} {c : Conflict} (h : Search s (.conflict c)) (hc : 0 < s.p.curLevel) (e : Env α)
    {a : An α} (ha : An.trailLoop e s.p s.db.lits s.p.trail.reverse (walkStart e s.p s.db.lits s.vflags s.vsids c) = some a)
    (levels : BitVec 64) : ∃ u rest b rest', a.clause = u :: rest ∧
      An.minLoop s.p s.db.lits levels (s.varCount + 1) rest a = some (b, rest') ∧ rest'.Sublist rest ∧
      Entails s (u :: rest') := by
  obtain ⟨F, A, ids, h1, h2, _⟩ := h.inv
  have hp := h1.core.c.tr
  obtain ⟨a', u, rest, e1, hw⟩ := walk_ok (e := e) h1.core.c h2 hc h1.fl h1.q.wf
  have e1' : An.trailLoop e s.p s.db.lits s.p.trail.reverse (walkStart e s.p s.db.lits s.vflags s.vsids c) = some a' := e1
  rw [ha] at e1'
  cases e1'
  obtain ⟨b, rest', m1, m2, m3, _⟩ := minLoop_implied h1.core.c (fuel := s.varCount + 1)
    (Nat.le_succ_of_le (hp.length_le (fun l hl => h1.lt _ (h1.core.c.pres l hl)))) hw levels
  exact ⟨u, rest, b, rest', hw.eq, m1, m2, fun ν hν => m3 ν ((dbSat_iff hp ν).1 hν)⟩

/-- A conflict whose clause loses a literal: `¬2` implies `3` (`2 ∨ 3`), and the clause before
minimisation is `¬4 ∨ 2 ∨ ¬3`. -/
example : ∃ (s : St Nat) (c : Conflict) (a b : An Nat) (L : Learned Nat), Search s (.conflict c) ∧ 0 < s.p.curLevel ∧
    Analysed Sample.env s c a b L ∧ a.clause.length = 3 ∧ b.clause.length = 2 := by
  obtain ⟨s, ph, h1, h2⟩ := Sample.peek_search
    (f := fun s ph => match ph with
      | .conflict c =>
        match An.trailLoop Sample.env s.p s.db.lits s.p.trail.reverse (walkStart Sample.env s.p s.db.lits s.vflags s.vsids c) with
        | some a => some (decide (0 < s.p.curLevel), a.clause.length,
            (An.minimize s.p s.db.lits (s.varCount + 1) a).map (fun b => b.clause.length))
        | none => none
      | _ => none)
    (ops := [Sample.cl [2, 3], Sample.cl [2, -3, -4, 5], Sample.cl [2, -3, -4, -5], Sample.asm [-2, 4]])
    (ms := [.propagate, .simplify, .assumption, .propagate, .simplify, .assumption, .propagate])
    (x := some (true, 3, some 2)) (by decide +kernel)
  cases ph with
  | conflict c =>
    simp only at h2
    split at h2
    · rename_i a ha
      simp only [Option.some.injEq, Prod.mk.injEq, decide_eq_true_eq] at h2
      obtain ⟨k1, k2, k3⟩ := h2
      obtain ⟨a', b, L, k4, _⟩ := C30.minimise h1 k1 Sample.env
      have : a' = a := by have := k4.walk; rw [ha] at this; exact (Option.some.inj this).symm
      subst this
      rw [k4.min] at k3
      exact ⟨s, c, a', b, L, h1, k1, k4, k2, Option.some.inj k3⟩
    · cases h2
  | _ => cases h2

end Varisat.Solver
