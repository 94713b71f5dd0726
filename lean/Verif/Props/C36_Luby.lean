import Verif.Model.Luby
import Mathlib.Tactic.Ring
/-!
# C36: restart intervals follow the Luby sequence
-/
namespace Varisat

/-- The Luby sequence, from index 1, by its definition (Luby, Sinclair and Zuckerman 1993):
`t i = 2^(k-1)` if `i = 2^k - 1`, and `t i = t (i - 2^(k-1) + 1)` if `2^(k-1) ≤ i < 2^k - 1`.
(`i.log2` is `k - 1`.) -/
def lubySpec (i : Nat) : Nat :=
  if i = 0 then 0
  else if i + 1 = 2 ^ (i.log2 + 1) then 2 ^ i.log2
  else lubySpec (i - 2 ^ i.log2 + 1)
termination_by i
decreasing_by
  rename_i h0 h1
  have h2 := Nat.log2_self_le h0
  rcases Nat.eq_zero_or_pos i.log2 with h | h
  · rw [h] at h1 h2 ⊢
    have := Nat.lt_log2_self (n := i)
    rw [h] at this
    omega
  · have : 2 ^ 1 ≤ 2 ^ i.log2 := Nat.pow_le_pow_right (by decide) h
    omega

namespace Luby

/-- The first `2^k - 1` elements. -/
def seg : Nat → List Nat
  | 0 => []
  | k + 1 => seg k ++ seg k ++ [2 ^ k]

theorem seg_length (k : Nat) : (seg k).length = 2 ^ k - 1 := by
  induction k with
  | zero => rfl
  | succ k ih =>
    have := Nat.two_pow_pos k
    simp only [seg, List.length_append, ih, List.length_singleton, Nat.pow_succ]; omega

theorem log2_eq {i k : Nat} (h1 : 2 ^ k ≤ i) (h2 : i < 2 ^ (k + 1)) : i.log2 = k := by
  have h0 : i ≠ 0 := by have := Nat.two_pow_pos k; omega
  exact (Nat.log2_eq_iff h0).2 ⟨h1, h2⟩

theorem seg_spec (k i : Nat) (hi : i < 2 ^ k - 1) : (seg k)[i]? = some (lubySpec (i + 1)) := by
  induction k generalizing i with
  | zero => simp at hi
  | succ k ih =>
    have hp := Nat.two_pow_pos k
    have hl := seg_length k
    rw [Nat.pow_succ] at hi
    simp only [seg]
    by_cases h1 : i < 2 ^ k - 1
    · rw [List.append_assoc, List.getElem?_append_left (by omega), ih i h1]
    · have hlog : (i + 1).log2 = k := log2_eq (by omega) (by rw [Nat.pow_succ]; omega)
      have e1 : i + 1 - 2 ^ k = i - (2 ^ k - 1) := by omega
      rw [lubySpec, if_neg (by omega), hlog]
      by_cases h2 : i - (2 ^ k - 1) < 2 ^ k - 1
      · rw [if_neg (by rw [Nat.pow_succ]; omega), List.getElem?_append_left (by
          rw [List.length_append]; omega), List.getElem?_append_right (by omega), hl, ih _ h2, e1]
      · rw [if_pos (by rw [Nat.pow_succ]; omega), List.getElem?_append_right (by
          rw [List.length_append]; omega), List.length_append, hl]
        have : i - (2 ^ k - 1 + (2 ^ k - 1)) = 0 := by omega
        rw [this]; rfl

/-! ### The blocks `1, 2, 4, .., 2^t` where `2^t` is the lowest bit of `u` -/

def pows (j : Nat) : Nat → List Nat
  | 0 => []
  | n + 1 => 2 ^ j :: pows (j + 1) n

theorem pows_append (j m n : Nat) : pows j (m + n) = pows j m ++ pows (j + m) n := by
  induction m generalizing j with
  | zero => simp [pows]
  | succ m ih =>
    rw [Nat.succ_add, pows, ih (j + 1), pows, List.cons_append]
    congr 3; omega

def nu (u : Nat) : Nat := if u = 0 then 0 else if u % 2 = 1 then 0 else nu (u / 2) + 1
termination_by u

theorem nu_spec (u : Nat) (h : 0 < u) : ∃ q, u = 2 ^ nu u * (2 * q + 1) := by
  induction u using Nat.strongRecOn with
  | _ u ih =>
    rw [nu, if_neg (by omega)]
    split
    · exact ⟨u / 2, by omega⟩
    · obtain ⟨q, hq⟩ := ih (u / 2) (by omega) (by omega)
      exact ⟨q, by
        rw [Nat.pow_succ, Nat.mul_assoc, Nat.mul_comm 2 (2 * q + 1), ← Nat.mul_assoc, ← hq]; omega⟩

theorem nu_unique {u t q : Nat} (h : u = 2 ^ t * (2 * q + 1)) : nu u = t := by
  induction t generalizing u with
  | zero => rw [nu, if_neg (by omega), if_pos (by omega)]
  | succ t ih =>
    have hp := Nat.two_pow_pos t
    have he : u = 2 * (2 ^ t * (2 * q + 1)) := by rw [h, Nat.pow_succ]; ring
    have h0 : 0 < 2 ^ t * (2 * q + 1) := Nat.mul_pos hp (by omega)
    rw [nu, if_neg (by omega), if_neg (by omega), ih (u := u / 2) (by omega)]

def block (u : Nat) : List Nat := pows 0 (nu u + 1)

/-- Blocks of `b+1, .., b+m`. -/
def blocks (b : Nat) : Nat → List Nat
  | 0 => []
  | m + 1 => blocks b m ++ block (b + m + 1)

theorem nu_add {k j : Nat} (hj : 0 < j) (h : j < 2 ^ k) : nu (2 ^ k + j) = nu j := by
  obtain ⟨q, hq⟩ := nu_spec j hj
  have ht : nu j < k := by
    by_contra hc
    have : 2 ^ k ≤ 2 ^ nu j := Nat.pow_le_pow_right (by decide) (by omega)
    have h2 : 2 ^ nu j * 1 ≤ 2 ^ nu j * (2 * q + 1) := Nat.mul_le_mul_left _ (by omega)
    omega
  apply nu_unique (q := 2 ^ (k - nu j - 1) + q)
  have : 2 ^ k = 2 ^ nu j * (2 * 2 ^ (k - nu j - 1)) := by
    rw [← Nat.pow_succ', ← Nat.pow_add]; congr 1; omega
  rw [this]
  calc 2 ^ nu j * (2 * 2 ^ (k - nu j - 1)) + j
      = 2 ^ nu j * (2 * 2 ^ (k - nu j - 1)) + 2 ^ nu j * (2 * q + 1) := by rw [← hq]
    _ = _ := by ring

theorem nu_pow (k : Nat) : nu (2 ^ k) = k := nu_unique (q := 0) (by simp)

theorem blocks_shift (k m : Nat) (h : m < 2 ^ k) : blocks (2 ^ k) m = blocks 0 m := by
  induction m with
  | zero => rfl
  | succ m ih =>
    rw [blocks, blocks, ih (by omega)]
    congr 1
    unfold block
    rw [Nat.add_assoc, nu_add (by omega) (by omega), Nat.zero_add]

theorem blocks_add (b m n : Nat) : blocks b (m + n) = blocks b m ++ blocks (b + m) n := by
  induction n with
  | zero => simp [blocks]
  | succ n ih =>
    rw [← Nat.add_assoc, blocks, ih, blocks, List.append_assoc]
    congr 3; omega

theorem blocks_seg (k : Nat) : blocks 0 (2 ^ k) = seg (k + 1) := by
  induction k with
  | zero => rw [seg, seg]; decide +kernel
  | succ k ih =>
    have hp := Nat.two_pow_pos k
    obtain ⟨m, hm⟩ : ∃ m, 2 ^ k = m + 1 := ⟨2 ^ k - 1, by omega⟩
    have last : block (2 ^ k + m + 1) = block (m + 1) ++ [2 ^ (k + 1)] := by
      unfold block
      have e1 : 2 ^ k + m + 1 = 2 ^ (k + 1) := by rw [Nat.pow_succ]; omega
      rw [e1, ← hm, nu_pow, nu_pow, pows_append 0 (k + 1) 1]
      simp [pows]
    have half : blocks (2 ^ k) (2 ^ k) = blocks 0 (2 ^ k) ++ [2 ^ (k + 1)] := by
      conv => lhs; rw [hm, blocks, ← hm, last, blocks_shift k m (by omega)]
      conv => rhs; rw [hm, blocks]
      simp
    rw [Nat.pow_succ, Nat.mul_two, blocks_add, Nat.zero_add, half, ih]
    conv => rhs; rw [seg]
    simp

/-! ### The generator emits the blocks -/

/-- The next `n` outputs. -/
def outs : Nat → Luby → List Nat
  | 0, _ => []
  | n + 1, s => s.advance.1.toNat :: outs n s.advance.2

theorem outs_get (n i : Nat) (s : Luby) (h : i < n) :
    (outs n s)[i]? = some ((s.after i).advance.1).toNat := by
  induction n generalizing i s with
  | zero => omega
  | succ n ih =>
    cases i with
    | zero => rfl
    | succ i => simp only [outs, List.getElem?_cons_succ, ih i _ (by omega)]; rfl

theorem and_compl (q m : Nat) (h : q < 2 ^ m) : q &&& (2 ^ m - (q + 1)) = 0 := by
  apply Nat.eq_of_testBit_eq
  intro i
  rw [Nat.testBit_and, Nat.testBit_two_pow_sub_succ h]
  cases q.testBit i <;> simp

theorem lowBit (u : BitVec 64) {t q : Nat} (h : u.toNat = 2 ^ t * (2 * q + 1)) :
    (u &&& (-u)).toNat = 2 ^ t := by
  have hlt := u.isLt
  have ht : t < 64 := by
    by_contra hc
    have : 2 ^ 64 ≤ 2 ^ t := Nat.pow_le_pow_right (by decide) (by omega)
    have h2 : 2 ^ t * 1 ≤ 2 ^ t * (2 * q + 1) := Nat.mul_le_mul_left _ (by omega)
    omega
  have hs : 2 ^ 64 = 2 ^ t * (2 * 2 ^ (63 - t)) := by
    rw [← Nat.pow_succ', ← Nat.pow_add]; congr 1; omega
  have hq : q < 2 ^ (63 - t) := by
    rw [h, hs] at hlt
    have := Nat.lt_of_mul_lt_mul_left hlt
    omega
  have hneg : (-u).toNat = 2 ^ t * (2 * (2 ^ (63 - t) - (q + 1)) + 1) := by
    rw [BitVec.toNat_neg, h]
    have e : 2 ^ 64 - 2 ^ t * (2 * q + 1) = 2 ^ t * (2 * (2 ^ (63 - t) - (q + 1)) + 1) := by
      rw [hs, ← Nat.mul_sub]; congr 1; omega
    rw [e]
    apply Nat.mod_eq_of_lt
    rw [← e]
    have := Nat.two_pow_pos t
    have : 0 < 2 ^ t * (2 * q + 1) := Nat.mul_pos this (by omega)
    omega
  rw [BitVec.toNat_and, hneg, h]
  have e2 : ∀ a b : Nat, 2 ^ t * a &&& 2 ^ t * b = 2 ^ t * (a &&& b) := by
    intro a b
    rw [Nat.mul_comm _ a, Nat.mul_comm _ b, Nat.mul_comm _ (a &&& b), ← Nat.shiftLeft_eq,
      ← Nat.shiftLeft_eq, ← Nat.shiftLeft_eq, Nat.shiftLeft_and_distrib]
  have e3 : (2 * q + 1) &&& (2 * (2 ^ (63 - t) - (q + 1)) + 1) = 1 := by
    have := and_compl q (63 - t) hq
    apply Nat.eq_of_testBit_eq
    intro i
    have hi := congrArg (fun x => x.testBit (i - 1)) this
    rw [Nat.testBit_and]
    cases i with
    | zero => simp
    | succ i =>
      simp only [Nat.testBit_and, Nat.zero_testBit, Nat.add_sub_cancel] at hi
      rw [Nat.testBit_succ, Nat.testBit_succ, Nat.testBit_succ]
      have d1 : (2 * q + 1) / 2 = q := by omega
      have d2 : (2 * (2 ^ (63 - t) - (q + 1)) + 1) / 2 = 2 ^ (63 - t) - (q + 1) := by omega
      rw [d1, d2, hi]; simp
  rw [e2, e3, Nat.mul_one]

theorem outs_block (u t q n : Nat) (hu : u < 2 ^ 64) (h : u = 2 ^ t * (2 * q + 1)) :
    ∀ d j, d + j = t →
    outs (d + 1 + n) ⟨BitVec.ofNat 64 u, BitVec.ofNat 64 (2 ^ j)⟩ =
      pows j (d + 1) ++ outs n ⟨BitVec.ofNat 64 (u + 1), 1⟩ := by
  have htn : (BitVec.ofNat 64 u).toNat = u := by rw [BitVec.toNat_ofNat]; omega
  have ht : 2 ^ t ≤ u := by
    rw [h]; exact Nat.le_mul_of_pos_right _ (by omega)
  have hlow : (BitVec.ofNat 64 u &&& (-BitVec.ofNat 64 u)).toNat = 2 ^ t :=
    lowBit _ (htn.trans h)
  intro d
  induction d with
  | zero =>
    intro j hj
    have hj : j = t := by omega
    subst hj
    have hv : (BitVec.ofNat 64 (2 ^ j)).toNat = 2 ^ j := by rw [BitVec.toNat_ofNat]; omega
    have hc : BitVec.ofNat 64 u &&& (-BitVec.ofNat 64 u) = BitVec.ofNat 64 (2 ^ j) :=
      BitVec.eq_of_toNat_eq (hlow.trans hv.symm)
    rw [Nat.zero_add, Nat.add_comm 1 n, outs]
    simp only [advance, if_pos hc, pows, hv, List.cons_append, List.nil_append]
    congr 3
    apply BitVec.eq_of_toNat_eq
    simp only [BitVec.toNat_add, BitVec.toNat_ofNat, Nat.mod_add_mod]
    simp
  | succ d ih =>
    intro j hj
    have hjt : 2 ^ (j + 1) ≤ 2 ^ t := Nat.pow_le_pow_right (by decide) (by omega)
    have hp := Nat.pow_succ 2 j
    have hv : (BitVec.ofNat 64 (2 ^ j)).toNat = 2 ^ j := by rw [BitVec.toNat_ofNat]; omega
    have hpos := Nat.two_pow_pos j
    have hc : ¬ BitVec.ofNat 64 u &&& (-BitVec.ofNat 64 u) = BitVec.ofNat 64 (2 ^ j) := by
      intro hc
      have := congrArg BitVec.toNat hc
      rw [hlow, hv] at this
      omega
    have hsh : BitVec.ofNat 64 (2 ^ j) <<< 1 = BitVec.ofNat 64 (2 ^ (j + 1)) := by
      apply BitVec.eq_of_toNat_eq
      rw [BitVec.toNat_shiftLeft, hv, Nat.shiftLeft_eq, BitVec.toNat_ofNat, hp]
    have e : d + 1 + 1 + n = (d + 1 + n) + 1 := by omega
    rw [e, outs]
    simp only [advance, if_neg hc, hv, hsh]
    rw [ih (j + 1) (by omega), pows]
    rfl

theorem outs_blocks (m n : Nat) (hm : m < 2 ^ 64) :
    outs ((blocks 0 m).length + n) {} = blocks 0 m ++ outs n ⟨BitVec.ofNat 64 (m + 1), 1⟩ := by
  induction m generalizing n with
  | zero => simp [blocks]
  | succ m ih =>
    obtain ⟨q, hq⟩ := nu_spec (m + 1) (by omega)
    have hl : ∀ j k, (pows j k).length = k := by
      intro j k; induction k generalizing j with
      | zero => rfl
      | succ k ih => simp [pows, ih]
    have hb : (block (0 + m + 1)).length = nu (m + 1) + 1 := by rw [Nat.zero_add, block, hl]
    rw [blocks, List.length_append, hb, Nat.add_assoc, ih _ (by omega)]
    have := outs_block (m + 1) (nu (m + 1)) q n hm hq (nu (m + 1)) 0 (by omega)
    rw [List.append_assoc]
    congr 1
    rw [Nat.zero_add, block]
    exact this

end Luby

/-- **C36**: call number `n` (from 0) of the generator returns element `n + 1` of the Luby
sequence. The bound is the number of calls after which a 64-bit counter could have overflowed. -/
theorem C36.luby (n : Nat) (h : n < 2 ^ 64 - 1) : Luby.output n = lubySpec (n + 1) := by
  have h1 := Luby.outs_blocks (2 ^ 63) 0 (by decide)
  rw [Luby.blocks_seg, Nat.add_zero, Luby.outs, List.append_nil, Luby.seg_length] at h1
  have h2 := Luby.outs_get (2 ^ 64 - 1) n {} h
  rw [h1, Luby.seg_spec 64 n h] at h2
  exact (Option.some.inj h2).symm

-- The values listed in the unit test of the crate are values of the specification (test).
example : (List.range 16).map (fun n => lubySpec (n + 1)) =
    [1, 1, 2, 1, 1, 2, 4, 1, 1, 2, 1, 1, 2, 4, 8, 1] := by decide +kernel

end Varisat
