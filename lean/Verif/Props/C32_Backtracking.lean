import Verif.Proof.Solver.Entail
import Verif.Proof.Solver.SampleSearch
/-!
# C32 Backtracking restores the earlier state
-/
namespace Varisat.Solver
variable {α : Type} [LinearOrder α]

/-- In every state of a search the assignment and the trail agree: literals on the trail are true, no
variable is on the trail twice, a variable that is assigned is on the trail or was fixed for good, and
levels do not decrease along the trail and are at most the current level. -/
theorem C32.agree {s : St α} {ph : Phase} (h : Search s ph) :
    (∀ l ∈ s.p.trail, s.p.isTrue l = true) ∧ (s.p.trail.map Lit.var).Nodup ∧
    (∀ v, s.p.value v ≠ none → (∃ l ∈ s.p.trail, l.var = v) ∨ s.p.isRemovedUnit v = true) ∧
    (∀ l ∈ s.p.trail, s.p.isRemovedUnit l.var = false) ∧
    (s.p.trail.map (fun l => s.p.level l.var)).Pairwise (· ≤ ·) ∧
    ∀ l ∈ s.p.trail, s.p.level l.var ≤ s.p.curLevel := by
  obtain ⟨F, A, ids, h1, _⟩ := h.inv
  have hp := h1.core.c.tr
  refine ⟨fun l hl => Pt.isTrue_iff.2 (hp.val l hl), hp.nodup, fun v hv => (hp.off v hv).imp id (fun h => ?_),
    fun l hl => ?_, ?_, fun l hl => ?_⟩
  · unfold Pt.isRemovedUnit; rw [h]; rfl
  · obtain ⟨k, hk⟩ := Pt.At.of_mem hl
    unfold Pt.isRemovedUnit; rw [hp.depth k l hk]; rfl
  · rw [List.pairwise_map, List.pairwise_iff_getElem]
    intro i j hi hj hij
    rw [hp.level i _ (List.getElem?_eq_getElem hi), hp.level j _ (List.getElem?_eq_getElem hj)]
    exact lvl_mono _ (by omega)
  · obtain ⟨k, hk⟩ := Pt.At.of_mem hl
    rw [hp.level k l hk]
    exact lvl_le _ _

theorem take_eq_filter {p : Pt} (hp : p.Ok) {level n : Nat} (hd : p.decisions[level]? = some n) :
    p.trail.take n = p.trail.filter (fun l => decide (p.level l.var ≤ level)) := by
  have h1 : ∀ l ∈ p.trail.take n, decide (p.level l.var ≤ level) = true := by
    intro l hl
    obtain ⟨k, hk, hka⟩ := at_of_mem_take hl
    rw [decide_eq_true_eq, hp.level k l hka, lvl_le_iff hp.sorted hd]
    exact hk
  have h2 : ∀ l ∈ p.trail.drop n, ¬ decide (p.level l.var ≤ level) = true := by
    intro l hl
    obtain ⟨j, hj⟩ := List.mem_iff_getElem?.1 hl
    rw [List.getElem?_drop] at hj
    rw [decide_eq_true_eq, hp.level (n + j) l hj, lvl_le_iff hp.sorted hd]
    omega
  conv_rhs => rw [← List.take_append_drop n p.trail]
  rw [List.filter_append, List.filter_eq_self.2 h1, List.filter_eq_nil_iff.2 h2, List.append_nil]

/-- Backtracking to a level removes exactly the assignments of higher levels. The others keep value,
level and reason; the clauses are not changed. -/
theorem C32.backtrack {s : St α} {ph : Phase} (h : Search s ph) (level : Nat) :
    (s.backtrack level).p.curLevel = min level s.p.curLevel ∧
    (s.backtrack level).p.trail = s.p.trail.filter (fun l => decide (s.p.level l.var ≤ level)) ∧
    (∀ v, (s.backtrack level).p.value v =
      if (∃ l ∈ s.p.trail, l.var = v) ∧ level < s.p.level v then none else s.p.value v) ∧
    (∀ v, (s.backtrack level).p.level v = s.p.level v ∧ (s.backtrack level).p.reason v = s.p.reason v) ∧
    (s.backtrack level).bins = s.bins ∧ (s.backtrack level).db = s.db ∧ (s.backtrack level).vars = s.vars := by
  obtain ⟨F, A, ids, h1, _⟩ := h.inv
  have hp := h1.core.c.tr
  cases hd : s.p.decisions[level]? with
  | none =>
    have hle : s.p.curLevel ≤ level := List.getElem?_eq_none_iff.1 hd
    rw [St.backtrack_none hle]
    have hall : ∀ l ∈ s.p.trail, s.p.level l.var ≤ level := by
      intro l hl
      obtain ⟨k, hk⟩ := Pt.At.of_mem hl
      rw [hp.level k l hk]
      exact Nat.le_trans (lvl_le _ _) hle
    refine ⟨by omega, (List.filter_eq_self.2 (fun l hl => by simpa using hall l hl)).symm, fun v => ?_, fun v => ⟨rfl, rfl⟩,
      rfl, rfl, rfl⟩
    rw [if_neg]
    rintro ⟨⟨l, hl, rfl⟩, hlt⟩
    have := hall l hl
    omega
  | some n =>
    obtain ⟨f1, f2, f3, f4, f5, f6, f7⟩ := Pt.backtrack_fields hd
    refine ⟨?_, f1.trans (take_eq_filter hp hd), fun v => ?_, fun v => ⟨Pt.backtrack_level hd v, Pt.backtrack_reason hd v⟩,
      rfl, rfl, rfl⟩
    · have := Pt.backtrack_curLevel hd
      have hlt : level < s.p.curLevel := (List.getElem?_eq_some_iff.1 hd).1
      show (s.p.backtrack level).1.curLevel = _
      rw [this]; omega
    · show (s.p.backtrack level).1.value v = _
      rw [f6]
      congr 1
      apply propext
      constructor
      · rintro ⟨l, hl, rfl⟩
        refine ⟨⟨l, List.mem_of_mem_drop hl, rfl⟩, ?_⟩
        obtain ⟨j, hj⟩ := List.mem_iff_getElem?.1 hl
        rw [List.getElem?_drop] at hj
        have : ¬ s.p.level l.var ≤ level := by
          rw [hp.level (n + j) l hj, lvl_le_iff hp.sorted hd]; omega
        omega
      · rintro ⟨⟨l, hl, rfl⟩, hlt⟩
        refine ⟨l, ?_, rfl⟩
        rw [← List.take_append_drop n s.p.trail, List.mem_append] at hl
        refine hl.resolve_left (fun ht => ?_)
        rw [take_eq_filter hp hd, List.mem_filter] at ht
        have := of_decide_eq_true ht.2
        omega

/-- In every state of a search, all unassigned variables that are in use are available for decisions; so
are those unassigned by backtracking. -/
theorem C32.available {s : St α} {ph : Phase} (h : Search s ph) (level : Nat) {v : Nat}
    (hv : (s.vars.gfs.map v).isSome = true) (hn : (s.backtrack level).p.value v = none) :
    ((s.backtrack level).vsids.position v).isSome = true := by
  obtain ⟨F, A, ids, h1, _⟩ := h.inv
  cases hd : s.p.decisions[level]? with
  | none =>
    have hle : s.p.curLevel ≤ level := List.getElem?_eq_none_iff.1 hd
    rw [St.backtrack_none hle] at hn ⊢
    exact h1.q.all v hv hn
  | some n => exact (h1.backtrack hd).q.all v hv hn

/-- Assignment and trail also agree after backtracking. -/
theorem C32.agree_after {s : St α} {ph : Phase} (h : Search s ph) (level : Nat) :
    (∀ l ∈ (s.backtrack level).p.trail, (s.backtrack level).p.isTrue l = true) ∧
    ((s.backtrack level).p.trail.map Lit.var).Nodup ∧
    ∀ v, (s.backtrack level).p.value v ≠ none →
      (∃ l ∈ (s.backtrack level).p.trail, l.var = v) ∨ (s.backtrack level).p.isRemovedUnit v = true := by
  obtain ⟨F, A, ids, h1, _⟩ := h.inv
  have hp : (s.backtrack level).p.Ok := by
    cases hd : s.p.decisions[level]? with
    | none => rw [St.backtrack_none (List.getElem?_eq_none_iff.1 hd)]; exact h1.core.c.tr
    | some n => exact h1.core.c.tr.backtrack hd
  refine ⟨fun l hl => Pt.isTrue_iff.2 (hp.val l hl), hp.nodup, fun v hv => (hp.off v hv).imp id (fun h => ?_)⟩
  unfold Pt.isRemovedUnit; rw [h]; rfl

/-- Three levels, the second with a propagated literal; backtracking to level 1. -/
example : ∃ s : St Nat, Search s .ready ∧ s.p.curLevel = 3 ∧ s.p.trail = [-1, 2, -5, -4].map Lit.fromDimacs ∧
    (s.backtrack 1).p.trail = [-1, 2].map Lit.fromDimacs ∧ ((s.backtrack 1).vsids.position 4).isSome = true := by
  obtain ⟨s, ph, h1, h2⟩ := Sample.peek_search
    (f := fun s ph => (match ph with | .ready => true | _ => false, s.p.curLevel, s.p.trail,
      (s.backtrack 1).p.trail, ((s.backtrack 1).vsids.position 4).isSome))
    (ops := [Sample.cl [1, 2], Sample.cl [3, 4, 5]]) (ms := [.propagate, .simplify, .decision, .propagate, .simplify,
      .decision, .propagate, .simplify, .decision])
    (x := (true, 3, [-1, 2, -5, -4].map Lit.fromDimacs, [-1, 2].map Lit.fromDimacs, true)) (by decide +kernel)
  simp only [Prod.mk.injEq] at h2
  obtain ⟨h3, h4⟩ := h2
  cases ph with
  | ready => exact ⟨s, h1, h4⟩
  | _ => cases h3

end Varisat.Solver
