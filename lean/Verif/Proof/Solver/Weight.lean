import Verif.Proof.Solver.Solve
import Mathlib.Algebra.BigOperators.Intervals
import Mathlib.Algebra.Order.BigOperators.Group.Finset
/-!
# A measure that grows with every conflict

The assigned variables are numbered: first the removed units, then the trail. The measure is the binary
number whose leading digits say for each of them whether it is not a decision. A conflict turns the digit
of a decision into 1 and only changes later digits; everything else between two restarts turns zeros
into ones.
-/
namespace Varisat.Solver

open Finset

/-- Assigned variables below `n` which are not on the trail. -/
def Pt.off (n : Nat) (p : Pt) : Nat :=
  (List.range n).countP (fun v => (p.value v).isSome && !(p.trail.map Lit.var).contains v)

/-- The weight of position `k` after `r` removed units. -/
def Pt.digit (n : Nat) (ds : List Nat) (r x : Nat) : Nat :=
  if r ≤ x ∧ x - r ∈ ds then 0 else 2 ^ (n - 1 - x)

/-- The measure. -/
def Pt.wt (n : Nat) (p : Pt) : Nat :=
  ∑ x ∈ range (p.off n + p.trail.length), Pt.digit n p.decisions (p.off n) x

theorem geo (n : Nat) {a b : Nat} (h : a ≤ b) (hb : b ≤ n) :
    (∑ x ∈ Ico a b, 2 ^ (n - 1 - x)) + 2 ^ (n - b) = 2 ^ (n - a) := by
  induction b, h using Nat.le_induction with
  | base => simp
  | succ b h ih =>
    rw [Finset.sum_Ico_succ_top h, Nat.add_assoc]
    have : n - 1 - b = n - (b + 1) := by omega
    rw [this, ← Nat.two_mul, ← Nat.pow_succ', show (n - (b + 1)).succ = n - b by omega]
    exact ih (by omega)

theorem Pt.digit_le (n : Nat) (ds : List Nat) (r x : Nat) : Pt.digit n ds r x ≤ 2 ^ (n - 1 - x) := by
  unfold Pt.digit; split <;> simp

theorem off_congr {n : Nat} {p q : Pt}
    (h : ∀ v, v < n → (((q.value v).isSome = true ∧ v ∉ q.trail.map Lit.var) ↔ ((p.value v).isSome = true ∧ v ∉ p.trail.map Lit.var))) :
    q.off n = p.off n := by
  unfold Pt.off
  apply List.countP_congr
  intro v hv
  have := h v (List.mem_range.1 hv)
  simpa using this

theorem countP_range {n : Nat} {T : List Nat} (hn : T.Nodup) (hT : ∀ v ∈ T, v < n) :
    (List.range n).countP (fun v => T.contains v) = T.length := by
  rw [List.countP_eq_length_filter]
  refine List.Perm.length_eq ?_
  rw [List.perm_ext_iff_of_nodup (List.nodup_range.filter _) hn]
  intro v
  simp only [List.mem_filter, List.mem_range, List.contains_iff_mem]
  exact ⟨fun h => h.2, fun h => ⟨hT v h, h⟩⟩

variable {n : Nat} {p q : Pt}

theorem Pt.Ok.off_le (h : p.Ok) (hn : ∀ l ∈ p.trail, l.var < n) : p.off n + p.trail.length ≤ n := by
  have h1 := countP_range (n := n) h.nodup (by
    intro v hv
    obtain ⟨l, hl, rfl⟩ := List.mem_map.1 hv
    exact hn l hl)
  rw [List.length_map] at h1
  have h2 := List.length_eq_countP_add_countP (l := List.range n) (fun v => (p.trail.map Lit.var).contains v)
  rw [List.length_range, h1] at h2
  have h3 : p.off n ≤ (List.range n).countP (fun v => Decidable.decide ¬(p.trail.map Lit.var).contains v = true) := by
    unfold Pt.off
    apply List.countP_mono_left
    intro v _ hv
    simp only [Bool.and_eq_true] at hv
    simpa using hv.2
  omega

theorem Pt.Ok.wt_lt (h : p.Ok) (hn : ∀ l ∈ p.trail, l.var < n) : p.wt n < 2 ^ n := by
  have h1 := h.off_le hn
  have h2 := geo n (Nat.zero_le (p.off n + p.trail.length)) h1
  rw [← Finset.range_eq_Ico] at h2
  have h3 : p.wt n ≤ ∑ x ∈ range (p.off n + p.trail.length), 2 ^ (n - 1 - x) :=
    Finset.sum_le_sum (fun x _ => Pt.digit_le n _ _ x)
  have := Nat.two_pow_pos (n - (p.off n + p.trail.length))
  simp only [Nat.sub_zero] at h2
  omega

theorem wt_same (h1 : q.value = p.value) (h2 : q.trail = p.trail) (h3 : q.decisions = p.decisions) : q.wt n = p.wt n := by
  have : q.off n = p.off n := off_congr (fun v _ => by rw [h1, h2])
  unfold Pt.wt
  rw [this, h2, h3]

theorem off_enqueue {m : Lit} {r : Reason} (hu : p.value m.var = none) : (p.enqueue m r).off n = p.off n := by
  refine off_congr (fun v _ => ?_)
  by_cases hv : v = m.var
  · subst hv
    simp [Pt.enqueue, hu]
  · rw [Pt.enqueue_value_ne hv]
    simp [Pt.enqueue, hv]

theorem wt_enqueue {m : Lit} {r : Reason} (hu : p.value m.var = none) :
    (p.enqueue m r).wt n = p.wt n + Pt.digit n p.decisions (p.off n) (p.off n + p.trail.length) := by
  unfold Pt.wt
  rw [off_enqueue hu]
  show ∑ x ∈ range (p.off n + (p.trail ++ [m]).length), _ = _
  rw [List.length_append, List.length_singleton, ← Nat.add_assoc, Finset.sum_range_succ]
  rfl

theorem wt_newLevel : p.newLevel.wt n = p.wt n := by
  have : p.newLevel.off n = p.off n := rfl
  unfold Pt.wt
  rw [this]
  show ∑ x ∈ range (p.off n + p.trail.length), _ = _
  refine Finset.sum_congr rfl (fun x hx => ?_)
  have hx := Finset.mem_range.1 hx
  unfold Pt.digit
  have : (p.off n ≤ x ∧ x - p.off n ∈ p.newLevel.decisions) ↔ (p.off n ≤ x ∧ x - p.off n ∈ p.decisions) := by
    unfold Pt.newLevel
    simp only [List.mem_append, List.mem_singleton]
    refine and_congr_right (fun h => ⟨fun k => k.resolve_right (by omega), .inl⟩)
  simp only [this]

theorem wt_decide {m : Lit} {r : Reason} (hu : p.value m.var = none) : p.wt n ≤ (p.newLevel.enqueue m r).wt n := by
  rw [wt_enqueue (p := p.newLevel) hu, wt_newLevel]
  exact Nat.le_add_right _ _

theorem Ext.wt_le (h : Ext p q) : p.wt n ≤ q.wt n := by
  induction h with
  | refl => exact Nat.le_refl _
  | step _ hu _ ih => rw [wt_enqueue hu]; omega

theorem PExt.wt_le (h : PExt p q) : p.wt n ≤ q.wt n := by
  have h1 := h.ext.wt_le (n := n)
  have h2 : Pt.wt n { p with qhead := q.qhead } = p.wt n := wt_same rfl rfl rfl
  omega

/-- Removing the units of level 0. -/
theorem wt_clear (h : p.Ok) (hn : ∀ l ∈ p.trail, l.var < n) (hd : p.decisions = []) (h1 : q.value = p.value) (h2 : q.trail = [])
    (h3 : q.decisions = []) : q.wt n = p.wt n := by
  have hoff : q.off n = p.off n + p.trail.length := by
    have h4 := countP_range (n := n) h.nodup (by
      intro v hv
      obtain ⟨l, hl, rfl⟩ := List.mem_map.1 hv
      exact hn l hl)
    rw [List.length_map] at h4
    have h5 : q.off n = (List.range n).countP (fun v => (p.value v).isSome) := by
      unfold Pt.off
      rw [h1, h2]
      simp
    rw [h5, ← h4]
    have : ∀ L : List Nat, L.countP (fun v => (p.value v).isSome) =
        L.countP (fun v => (p.value v).isSome && !(p.trail.map Lit.var).contains v) + L.countP (fun v => (p.trail.map Lit.var).contains v) := by
      intro L
      induction L with
      | nil => rfl
      | cons v L ih =>
        rw [List.countP_cons, List.countP_cons, List.countP_cons, ih]
        by_cases hv : v ∈ p.trail.map Lit.var
        · obtain ⟨l, hl, hlv⟩ := List.mem_map.1 hv
          have h6 : (p.value v).isSome = true := by rw [← hlv, h.val l hl]; rfl
          have h7 : (p.trail.map Lit.var).contains v = true := List.contains_iff_mem.2 hv
          rw [h6, h7]; simp; omega
        · have h7 : (p.trail.map Lit.var).contains v = false := by simpa using hv
          rw [h7]
          cases (p.value v).isSome <;> simp <;> omega
    exact this _
  unfold Pt.wt
  rw [hoff, h2, h3, hd]
  simp [Pt.digit]

theorem off_backtrack (h : p.Ok) {level d : Nat} (hd : p.decisions[level]? = some d) : (p.backtrack level).1.off n = p.off n := by
  obtain ⟨h1, _, _, _, _, h6, _⟩ := Pt.backtrack_fields hd
  refine off_congr (fun v _ => ?_)
  rw [h1, h6]
  have hsplit : v ∈ p.trail.map Lit.var ↔ v ∈ (p.trail.take d).map Lit.var ∨ v ∈ (p.trail.drop d).map Lit.var := by
    rw [← List.mem_append, ← List.map_append, List.take_append_drop]
  by_cases hv : ∃ l ∈ p.trail.drop d, l.var = v
  · rw [if_pos hv]
    have : v ∈ (p.trail.drop d).map Lit.var := List.mem_map.2 hv
    exact ⟨fun k => by simp at k, fun k => absurd (hsplit.2 (.inr this)) k.2⟩
  · rw [if_neg hv]
    have : v ∉ (p.trail.drop d).map Lit.var := fun k => hv (List.mem_map.1 k)
    exact and_congr_right (fun _ => not_congr (by rw [hsplit]; exact (or_iff_left this).symm))

/-- Backtracking and enqueuing a literal there. -/
theorem wt_learn (h : p.Ok) (hn : ∀ l ∈ p.trail, l.var < n) {level d : Nat} (hd : p.decisions[level]? = some d) {m : Lit} {r : Reason}
    (hu : (p.backtrack level).1.value m.var = none) : p.wt n < ((p.backtrack level).1.enqueue m r).wt n := by
  obtain ⟨h1, _, h3, _⟩ := Pt.backtrack_fields hd
  have hle := h.off_le hn
  have hdl := h.dlt d (List.mem_of_getElem? hd)
  have hlev := (List.getElem?_eq_some_iff.1 hd).1
  have hmem : ∀ x, x < d → (x ∈ p.decisions.take level ↔ x ∈ p.decisions) := by
    intro x hx
    refine ⟨List.mem_of_mem_take, fun k => ?_⟩
    obtain ⟨i, hi⟩ := List.getElem?_of_mem k
    have hil := (List.getElem?_eq_some_iff.1 hi).1
    have : i < level := by
      by_contra hc
      rcases Nat.eq_or_lt_of_le (Nat.not_lt.1 hc) with rfl | hc
      · rw [hd] at hi; have := Option.some.inj hi; omega
      · have := List.pairwise_iff_getElem.1 h.sorted level i hlev hil hc
        rw [(List.getElem?_eq_some_iff.1 hd).2, (List.getElem?_eq_some_iff.1 hi).2] at this
        omega
    exact List.mem_of_getElem? (i := i) (by rw [List.getElem?_take, if_pos this]; exact hi)
  have hnot : d ∉ p.decisions.take level := by
    intro k
    obtain ⟨i, hi⟩ := List.getElem?_of_mem k
    rw [List.getElem?_take] at hi
    split at hi
    · rename_i hil
      have hi' := (List.getElem?_eq_some_iff.1 hi).1
      have := List.pairwise_iff_getElem.1 h.sorted i level hi' hlev hil
      rw [(List.getElem?_eq_some_iff.1 hd).2, (List.getElem?_eq_some_iff.1 hi).2] at this
      omega
    · cases hi
  rw [wt_enqueue hu, off_backtrack h hd, h1, h3]
  have hl : (p.trail.take d).length = d := by rw [List.length_take]; omega
  rw [hl]
  unfold Pt.wt
  rw [off_backtrack h hd, h1, h3, hl]
  have hR : Pt.digit n (p.decisions.take level) (p.off n) (p.off n + d) = 2 ^ (n - 1 - (p.off n + d)) := by
    unfold Pt.digit
    rw [if_neg]
    rintro ⟨_, k⟩
    rw [Nat.add_sub_cancel_left] at k
    exact hnot k
  have hD : Pt.digit n p.decisions (p.off n) (p.off n + d) = 0 := by
    unfold Pt.digit
    rw [if_pos]
    rw [Nat.add_sub_cancel_left]
    exact ⟨Nat.le_add_right _ _, List.mem_of_getElem? hd⟩
  have hA : ∑ x ∈ range (p.off n + d), Pt.digit n (p.decisions.take level) (p.off n) x =
      ∑ x ∈ range (p.off n + d), Pt.digit n p.decisions (p.off n) x := by
    refine Finset.sum_congr rfl (fun x hx => ?_)
    have hx := Finset.mem_range.1 hx
    unfold Pt.digit
    by_cases hc : p.off n ≤ x
    · simp only [hc, true_and, hmem (x - p.off n) (by omega)]
    · simp [hc]
  rw [hA, hR]
  have hB : ∑ x ∈ range (p.off n + p.trail.length), Pt.digit n p.decisions (p.off n) x =
      ∑ x ∈ range (p.off n + d), Pt.digit n p.decisions (p.off n) x +
      ∑ x ∈ Ico (p.off n + d) (p.off n + p.trail.length), Pt.digit n p.decisions (p.off n) x :=
    (Finset.sum_range_add_sum_Ico _ (by omega)).symm
  rw [hB, Finset.sum_eq_sum_Ico_succ_bot (by omega : p.off n + d < p.off n + p.trail.length), hD, Nat.zero_add]
  have hG := geo n (a := p.off n + d + 1) (b := p.off n + p.trail.length) (by omega) hle
  have hC : ∑ x ∈ Ico (p.off n + d + 1) (p.off n + p.trail.length), Pt.digit n p.decisions (p.off n) x ≤
      ∑ x ∈ Ico (p.off n + d + 1) (p.off n + p.trail.length), 2 ^ (n - 1 - x) :=
    Finset.sum_le_sum (fun x _ => Pt.digit_le n _ _ x)
  have hpos := Nat.two_pow_pos (n - (p.off n + p.trail.length))
  have he : n - 1 - (p.off n + d) = n - (p.off n + d + 1) := by omega
  rw [he]
  omega

end Varisat.Solver
