import Verif.Proof.Utf8
/-!
# Decimal output lemmas
-/
namespace Varisat
open Spec.Dimacs

theorem digit_toNat {n : Nat} (h : n < 10) : (UInt8.ofNat (48 + n)).toNat = 48 + n := by
  simp only [UInt8.toNat_ofNat']; omega

theorem decNat_ne (n : Nat) : decNat n ≠ [] := by
  rw [decNat]; split <;> simp

theorem decNat_digits (n : Nat) : ∀ b ∈ decNat n, isDigit b = true := by
  induction n using Nat.strongRecOn with
  | _ n ih =>
    intro b hb
    rw [decNat] at hb
    split at hb
    · simp only [List.mem_singleton] at hb; subst hb
      have := digit_toNat (n := n) (by omega)
      simp only [isDigit, this, Bool.decide_and, Bool.and_eq_true, decide_eq_true_eq]; omega
    · simp only [List.mem_append, List.mem_singleton] at hb
      rcases hb with hb | hb
      · exact ih (n / 10) (by omega) b hb
      · subst hb
        have := digit_toNat (n := n % 10) (by omega)
        simp only [isDigit, this, Bool.decide_and, Bool.and_eq_true, decide_eq_true_eq]; omega

theorem digitsValue_decNat (n : Nat) : digitsValue (decNat n) = n := by
  induction n using Nat.strongRecOn with
  | _ n ih =>
    rw [decNat]
    split
    · simp [digitsValue]; omega
    · simp only [digitsValue, List.foldl_append, List.foldl_cons, List.foldl_nil] at ih ⊢
      rw [ih (n / 10) (by omega), digit_toNat (n := n % 10) (by omega)]; omega

theorem isDigit_ne {b : UInt8} (h : isDigit b = true) :
    b ≠ 10 ∧ b ≠ 13 ∧ b ≠ 32 ∧ b ≠ 99 ∧ b ≠ 112 ∧ b ≠ 45 ∧ b ≠ 43 ∧ b < 128 ∧ isSpace b = false := by
  have h' : 48 ≤ b.toNat ∧ b.toNat ≤ 57 := by simpa [isDigit] using h
  refine ⟨?_, ?_, ?_, ?_, ?_, ?_, ?_, ?_, ?_⟩
  iterate 7 (rintro rfl; revert h; decide)
  · exact UInt8.lt_iff_toNat_lt.2 (by show b.toNat < 128; omega)
  · unfold isSpace
    have h1 : ¬ b ≤ 13 := by
      intro hle; have := UInt8.le_iff_toNat_le.1 hle
      have e : (13 : UInt8).toNat = 13 := rfl
      omega
    have h2 : b ≠ 32 := by rintro rfl; revert h; decide
    simp [h1, h2]

theorem decInt_bytes (n : Int) : ∀ b ∈ decInt n,
    b ≠ 10 ∧ b ≠ 13 ∧ b ≠ 32 ∧ b ≠ 99 ∧ b ≠ 112 := by
  intro b hb
  unfold decInt at hb
  have key : ∀ b ∈ decNat n.natAbs, b ≠ 10 ∧ b ≠ 13 ∧ b ≠ 32 ∧ b ≠ 99 ∧ b ≠ 112 := by
    intro b hb
    have := isDigit_ne (decNat_digits _ b hb)
    exact ⟨this.1, this.2.1, this.2.2.1, this.2.2.2.1, this.2.2.2.2.1⟩
  split at hb
  · rcases List.mem_cons.1 hb with rfl | hb
    · decide
    · exact key b hb
  · exact key b hb

theorem decInt_ne (n : Int) : decInt n ≠ [] := by
  unfold decInt; split
  · simp
  · exact decNat_ne _

theorem number?_decInt (n : Int) (h : n.natAbs ≤ 2 ^ 28) : number? (decInt n) = some n := by
  have hu : unsigned? (decNat n.natAbs) = some n.natAbs := by
    unfold unsigned?
    rw [digitsValue_decNat, if_pos]
    exact ⟨decNat_ne _, by simpa using decNat_digits n.natAbs, h⟩
  unfold decInt
  split
  · simp only [number?, hu, Option.map_some]; congr 1; omega
  · unfold number?
    split
    · rename_i heq
      have := (isDigit_ne (decNat_digits n.natAbs 45 (by rw [heq]; simp))).2.2.2.2.2.1
      exact absurd rfl this
    · rw [hu]; simp only [Option.map_some]; congr 1; omega

theorem bytesNumber?_decNat (n : Nat) (h : n < 2 ^ 64) : bytesNumber? (decNat n) = some n := by
  unfold bytesNumber?
  have hh : (decNat n).head? ≠ some 43 := by
    intro hh
    have hm := List.mem_of_mem_head? hh
    exact (isDigit_ne (decNat_digits n 43 hm)).2.2.2.2.2.2.1 rfl
  rw [if_neg hh]
  simp only [digitsValue_decNat, ne_eq, decNat_ne, not_false_eq_true, h, and_true, true_and]
  rw [if_pos]
  simpa using decNat_digits n

end Varisat
