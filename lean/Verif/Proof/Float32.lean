import Verif.Model.Activity
import Verif.Proof.VsidsQueue
import Mathlib.Order.Fin.Basic
import Mathlib.Order.Monotone.Basic
import Mathlib.Algebra.Order.Group.Abs
import Mathlib.Tactic.Linarith
/-!
# Rounding, and the values of the heuristics
-/
namespace Varisat.Flt

theorem value_succ (n : Nat) : value n < value (n + 1) := by
  unfold value
  by_cases h1 : n + 1 < 2 ^ 23
  · rw [if_pos (by omega), if_pos h1]; omega
  by_cases h2 : n < 2 ^ 23
  · obtain rfl : n = 2 ^ 23 - 1 := by omega
    decide
  rw [if_neg h2, if_neg h1]
  by_cases h3 : n % 2 ^ 23 = 2 ^ 23 - 1
  · have e1 : (n + 1) % 2 ^ 23 = 0 := by omega
    have e2 : (n + 1) / 2 ^ 23 - 1 = (n / 2 ^ 23 - 1) + 1 := by omega
    rw [e1, e2, h3]
    generalize n / 2 ^ 23 - 1 = k
    rw [show 2 ^ (k + 1) = 2 * 2 ^ k by rw [Nat.pow_succ, Nat.mul_comm], ← Nat.mul_assoc]
    exact Nat.mul_lt_mul_of_pos_right (by decide) (Nat.two_pow_pos _)
  · have e1 : (n + 1) % 2 ^ 23 = n % 2 ^ 23 + 1 := by omega
    have e2 : (n + 1) / 2 ^ 23 = n / 2 ^ 23 := by omega
    rw [e1, e2]
    exact Nat.mul_lt_mul_of_pos_right (by omega) (Nat.two_pow_pos _)

theorem value_lt {m n : Nat} (h : m < n) : value m < value n := strictMono_nat_of_lt_succ value_succ h

theorem value_le {m n : Nat} (h : m ≤ n) : value m ≤ value n := (strictMono_nat_of_lt_succ value_succ).monotone h

theorem Reaches.le {a b n : Nat} (h : Reaches a b n) : (value (n - 1) + value n) * b ≤ 2 * a := by
  rcases h with h | h
  · exact Nat.le_of_lt h
  · exact Nat.le_of_eq h.1

theorem Reaches.down {a b m n : Nat} (hb : 0 < b) (hmn : m ≤ n) (h : Reaches a b n) : Reaches a b m := by
  rcases Nat.lt_or_eq_of_le hmn with hlt | rfl
  · left
    refine Nat.lt_of_lt_of_le ?_ h.le
    refine Nat.mul_lt_mul_of_pos_right ?_ hb
    have := value_lt hlt
    have := value_le (show m - 1 ≤ n - 1 by omega)
    omega
  · exact h

theorem round_le_inf (a b : Nat) : round a b ≤ inf := Nat.findGreatest_le _

theorem round_reaches (a b : Nat) : Reaches a b (round a b) := by
  unfold round
  refine Nat.findGreatest_spec (Nat.zero_le _) ?_
  unfold Reaches
  simp [value]
  omega

theorem le_round {a b n : Nat} (hb : 0 < b) (hn : n ≤ inf) (h : value n * b ≤ a) : n ≤ round a b := by
  refine Nat.le_findGreatest hn ?_
  cases n with
  | zero => unfold Reaches; simp [value]; omega
  | succ n =>
    left
    have h1 := value_succ n
    have h2 : (value n + value (n + 1)) * b < 2 * (value (n + 1) * b) := by
      rw [← Nat.mul_assoc]
      exact Nat.mul_lt_mul_of_pos_right (by omega) hb
    simp only [Nat.add_sub_cancel]
    omega

theorem round_le {a b n : Nat} (hb : 0 < b) (h : a ≤ value n * b) : round a b ≤ n := by
  by_contra hc
  have h1 := (round_reaches a b).le
  have h2 := value_lt (show n < round a b by omega)
  have h3 := value_le (show n ≤ round a b - 1 by omega)
  have h4 : 2 * (value n * b) < (value (round a b - 1) + value (round a b)) * b := by
    rw [← Nat.mul_assoc]
    exact Nat.mul_lt_mul_of_pos_right (by omega) hb
  omega

/-- Rounding is monotone. -/
theorem round_mono {a b a' b' : Nat} (hb : 0 < b) (hb' : 0 < b') (h : a * b' ≤ a' * b) : round a b ≤ round a' b' := by
  refine Nat.le_findGreatest (round_le_inf _ _) ?_
  rcases round_reaches a b with k | ⟨k, ke⟩
  · unfold Reaches
    left
    generalize value (round a b - 1) + value (round a b) = s at k ⊢
    by_contra hc
    have h1 : 2 * a' * b ≤ s * b' * b := Nat.mul_le_mul_right _ (by omega)
    have h2 : s * b * b' < 2 * a * b' := Nat.mul_lt_mul_of_pos_right k hb'
    have e1 : s * b * b' = s * b' * b := Nat.mul_right_comm _ _ _
    have e2 : 2 * a * b' = 2 * (a * b') := Nat.mul_assoc _ _ _
    have e3 : 2 * a' * b = 2 * (a' * b) := Nat.mul_assoc _ _ _
    omega
  · unfold Reaches
    generalize value (round a b - 1) + value (round a b) = s at k ⊢
    have h2 : s * b * b' = 2 * a * b' := by rw [k]
    have e1 : s * b * b' = s * b' * b := Nat.mul_right_comm _ _ _
    have e2 : 2 * a * b' = 2 * (a * b') := Nat.mul_assoc _ _ _
    have e3 : 2 * a' * b = 2 * (a' * b) := Nat.mul_assoc _ _ _
    have h3 : s * b' * b ≤ 2 * a' * b := by omega
    have h4 : s * b' ≤ 2 * a' := Nat.le_of_mul_le_mul_right h3 hb
    rcases Nat.lt_or_eq_of_le h4 with h4 | h4
    · exact .inl h4
    · exact .inr ⟨h4, ke⟩

/-- No pattern is nearer than the rounded one. -/
theorem round_nearest {a b : Nat} (hb : 0 < b) {m : Nat} (hm : m ≤ inf) :
    |(value (round a b) * b : Int) - a| ≤ |(value m * b : Int) - a| := by
  rcases Nat.lt_trichotomy m (round a b) with h | h | h
  · have h1 := (round_reaches a b).le
    have h2 := Nat.mul_le_mul_right b (value_le (show m ≤ round a b - 1 by omega))
    have h3 := Nat.mul_le_mul_right b (value_le (show m ≤ round a b by omega))
    rw [Nat.add_mul] at h1
    have h1' : (value m * b : Int) + value (round a b) * b ≤ 2 * a := by exact_mod_cast Nat.le_trans (by omega) h1
    have h3' : (value m * b : Int) ≤ value (round a b) * b := by exact_mod_cast h3
    rw [abs_le]
    rcases abs_cases ((value m * b : Int) - a) with ⟨e, _⟩ | ⟨e, _⟩ <;> rw [e] <;> constructor <;> linarith
  · rw [h]
  · have h1 : ¬ Reaches a b (round a b + 1) := Nat.findGreatest_is_greatest (Nat.lt_succ_self _) (by omega)
    have h2 := Nat.mul_le_mul_right b (Nat.add_le_add_left (value_le (show round a b + 1 ≤ m by omega)) (value (round a b)))
    have h3 := Nat.mul_le_mul_right b (value_le (show round a b ≤ m by omega))
    have h4 : 2 * a ≤ (value (round a b) + value m) * b := by
      unfold Reaches at h1
      simp only [Nat.add_sub_cancel, not_or, Nat.not_lt] at h1
      omega
    rw [Nat.add_mul] at h4
    have h4' : (2 * a : Int) ≤ value (round a b) * b + value m * b := by exact_mod_cast h4
    have h3' : (value (round a b) * b : Int) ≤ value m * b := by exact_mod_cast h3
    rw [abs_le]
    rcases abs_cases ((value m * b : Int) - a) with ⟨e, _⟩ | ⟨e, _⟩ <;> rw [e] <;> constructor <;> linarith

end Varisat.Flt
