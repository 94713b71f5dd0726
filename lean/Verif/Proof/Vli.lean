import Verif.Model.Vli
import Mathlib.Tactic.Ring
/-!
# Lemmas about the variable-length integers
-/
namespace Varisat.Vli

theorem tz_spec (x : Nat) (h : x ≠ 0) :
    x.testBit (trailingZeros x) = true ∧ ∀ i < trailingZeros x, x.testBit i = false := by
  induction x using Nat.strongRecOn with
  | _ x ih =>
    rw [trailingZeros]
    simp only [h, if_false]
    split
    · rename_i h1; simp [Nat.testBit_zero, h1]
    · rename_i h1
      have h2 : x / 2 ≠ 0 := by omega
      obtain ⟨g1, g2⟩ := ih (x / 2) (by omega) h2
      refine ⟨by rw [Nat.testBit_succ]; exact g1, fun i hi => ?_⟩
      cases i with
      | zero => simp [Nat.testBit_zero]; omega
      | succ i => rw [Nat.testBit_succ]; exact g2 i (by omega)

theorem tz_unique {x t : Nat} (h1 : x.testBit t = true) (h2 : ∀ i < t, x.testBit i = false) :
    trailingZeros x = t := by
  have hx : x ≠ 0 := by rintro rfl; simp at h1
  obtain ⟨g1, g2⟩ := tz_spec x hx
  rcases Nat.lt_trichotomy (trailingZeros x) t with h | h | h
  · rw [h2 _ h] at g1; simp at g1
  · exact h
  · rw [g2 _ h] at h1; simp at h1

/-- Number of trailing zeros, at most 9. -/
def tz9 (x : Nat) : Nat := trailingZeros (x ||| 1 <<< 9)

theorem testBit_or512 (x i : Nat) : (x ||| 1 <<< 9).testBit i = (x.testBit i || decide (i = 9)) := by
  rw [Nat.testBit_or, Nat.one_shiftLeft, Nat.testBit_two_pow]
  congr 1; simp [eq_comm]

theorem or512_ne (x : Nat) : x ||| 1 <<< 9 ≠ 0 := by
  intro h
  have h1 := testBit_or512 x 9
  rw [h] at h1; simp at h1

theorem tz9_le (x : Nat) : tz9 x ≤ 9 := by
  unfold tz9
  obtain ⟨g1, g2⟩ := tz_spec (x ||| 1 <<< 9) (or512_ne x)
  by_contra hc
  have := g2 9 (by omega)
  rw [testBit_or512] at this
  simp at this

theorem tz9_bits (x : Nat) : ∀ i < tz9 x, x.testBit i = false := by
  intro i hi
  obtain ⟨g1, g2⟩ := tz_spec (x ||| 1 <<< 9) (or512_ne x)
  have := g2 i hi
  rw [testBit_or512] at this
  simp at this; exact this.1

/-- `tz9` depends only on the bits below 9. -/
theorem tz9_congr {x y : Nat} (h : ∀ i < 9, x.testBit i = y.testBit i) : tz9 x = tz9 y := by
  obtain ⟨g1, g2⟩ := tz_spec (x ||| 1 <<< 9) (or512_ne x)
  have hle := tz9_le x
  symm
  refine tz_unique (t := tz9 x) ?_ ?_
  · rw [testBit_or512]
    have : (x ||| 1 <<< 9).testBit (tz9 x) = true := g1
    rw [testBit_or512] at this
    by_cases h9 : tz9 x = 9
    · simp [h9]
    · rw [← h _ (by omega)]; exact this
  · intro i hi
    have : (x ||| 1 <<< 9).testBit i = false := g2 i hi
    rw [testBit_or512] at this ⊢
    rw [← h i (by omega)]; exact this

theorem tz9_low {x y : Nat} (hx : x < 256) (h0 : x ≠ 0) : tz9 (x + 256 * y) = tz9 x := by
  -- the first set bit of `x` is below 8
  obtain ⟨g1, g2⟩ := tz_spec x h0
  have hlt : trailingZeros x < 8 := by
    by_contra hc
    have : x.testBit (trailingZeros x) = false := Nat.testBit_lt_two_pow (by
      calc x < 2 ^ 8 := hx
        _ ≤ 2 ^ trailingZeros x := Nat.pow_le_pow_right (by decide) (by omega))
    rw [this] at g1; simp at g1
  have hbit : ∀ i < 8, (x + 256 * y).testBit i = x.testBit i := by
    intro i hi
    have e : x + 256 * y = 2 ^ 8 * y + x := by omega
    rw [e, Nat.testBit_two_pow_mul_add y (by simpa using hx)]
    simp [hi]
  have k : ∀ z : Nat, (∀ i < 8, z.testBit i = x.testBit i) → tz9 z = trailingZeros x := by
    intro z hz
    refine tz_unique ?_ ?_
    · rw [testBit_or512, hz _ hlt, g1]; rfl
    · intro i hi
      rw [testBit_or512, hz _ (by omega), g2 i hi]
      simp; omega
  rw [k _ hbit, k x (fun _ _ => rfl)]

theorem leNat_lt (bs : Bytes) : leNat bs < 256 ^ bs.length := by
  induction bs with
  | nil => simp [leNat]
  | cons b bs ih =>
    have hb : b.toNat < 256 := b.toNat_lt
    simp only [leNat, List.length_cons, Nat.pow_succ]
    omega

theorem leNat_append (xs ys : Bytes) :
    leNat (xs ++ ys) = leNat xs + 256 ^ xs.length * leNat ys := by
  induction xs with
  | nil => simp [leNat]
  | cons x xs ih =>
    simp only [List.cons_append, leNat, ih, List.length_cons, Nat.pow_succ]
    ring_nf

theorem leBytes_length (n x : Nat) : (leBytes n x).length = n := by
  induction n generalizing x with
  | zero => rfl
  | succ n ih => simp [leBytes, ih]

theorem leNat_leBytes (n x : Nat) (h : x < 256 ^ n) : leNat (leBytes n x) = x := by
  induction n generalizing x with
  | zero => simp at h; simp [leBytes, leNat, h]
  | succ n ih =>
    simp only [leBytes, leNat]
    rw [ih (x / 256) (by rw [Nat.pow_succ] at h; omega)]
    have : (UInt8.ofNat (x % 256)).toNat = x % 256 := by
      simp only [UInt8.toNat_ofNat']; omega
    rw [this]; omega

theorem leBytes_take (n m x : Nat) (h : n ≤ m) : (leBytes m x).take n = leBytes n x := by
  induction n generalizing m x with
  | zero => simp [leBytes]
  | succ n ih =>
    cases m with
    | zero => omega
    | succ m => simp [leBytes, ih m (x / 256) (by omega)]

theorem leBytes_mod (n x : Nat) : leBytes n (x % 256 ^ n) = leBytes n x := by
  induction n generalizing x with
  | zero => rfl
  | succ n ih =>
    simp only [leBytes]
    rw [Nat.pow_succ', Nat.mod_mul_right_div_self, ih, Nat.mod_mul_right_mod]

theorem leBytes_add (n m x : Nat) :
    leBytes (n + m) x = leBytes n x ++ leBytes m (x / 256 ^ n) := by
  induction n generalizing x with
  | zero => simp [leBytes]
  | succ n ih =>
    have : n + 1 + m = (n + m) + 1 := by omega
    rw [this]
    simp only [leBytes, ih, List.cons_append]
    rw [Nat.pow_succ', Nat.div_div_eq_div_mul]

theorem or_shl (r b k : Nat) (hr : r < 2 ^ k) (hk : k ≤ 64) :
    r ||| shl64 b k = (r + b * 2 ^ k) % 2 ^ 64 := by
  unfold shl64
  rw [Nat.shiftLeft_eq]
  have e : 2 ^ 64 = 2 ^ k * 2 ^ (64 - k) := by rw [← Nat.pow_add]; congr 1; omega
  have e1 : b * 2 ^ k % 2 ^ 64 = 2 ^ k * (b % 2 ^ (64 - k)) := by
    rw [e, Nat.mul_comm b, Nat.mul_mod_mul_left]
  have e2 : (r + b * 2 ^ k) % 2 ^ 64 = 2 ^ k * (b % 2 ^ (64 - k)) + r := by
    rw [e, Nat.mod_mul]
    have h1 : (r + b * 2 ^ k) % 2 ^ k = r := by
      rw [Nat.add_mul_mod_self_right, Nat.mod_eq_of_lt hr]
    have h2 : (r + b * 2 ^ k) / 2 ^ k = b := by
      rw [Nat.add_mul_div_right _ _ (Nat.two_pow_pos k), Nat.div_eq_of_lt hr, Nat.zero_add]
    rw [h1, h2]; omega
  rw [e1, e2, Nat.or_comm, Nat.two_pow_add_eq_or_of_lt hr]

theorem pow256 (i : Nat) : 256 ^ i = 2 ^ (8 * i) := by
  rw [Nat.pow_mul]

theorem pow_split {a b : Nat} (h : a ≤ b) : 2 ^ b = 2 ^ a * 2 ^ (b - a) := by
  rw [← Nat.pow_add]; congr 1; omega

theorem slowLoop_spec (len : Nat) (hlen : len ≤ 10) : ∀ (n i N : Nat) (bs : Bytes), i + n = len →
    len ≤ 8 * i → N < 256 ^ i →
    slowLoop len n i ((N / 2 ^ len) % 2 ^ 64) bs =
      if bs.length < n then none
      else some (((N + 256 ^ i * leNat (bs.take n)) / 2 ^ len) % 2 ^ 64, bs.drop n) := by
  intro n
  induction n with
  | zero => intro i N bs _ _ _; simp [slowLoop, leNat]
  | succ n ih =>
    intro i N bs hin hi hN
    cases bs with
    | nil => simp [slowLoop]
    | cons b bs =>
      have hb : b.toNat < 256 := b.toNat_lt
      simp only [slowLoop]
      have hr : (N / 2 ^ len) % 2 ^ 64 < 2 ^ (8 * i - len) := by
        apply Nat.lt_of_le_of_lt (Nat.mod_le _ _)
        rw [Nat.div_lt_iff_lt_mul (Nat.two_pow_pos _), ← Nat.pow_add]
        rw [pow256] at hN
        have : 8 * i - len + len = 8 * i := by omega
        rwa [this]
      rw [or_shl _ _ _ hr (by omega)]
      have hstep : (N / 2 ^ len % 2 ^ 64 + b.toNat * 2 ^ (8 * i - len)) % 2 ^ 64 =
          ((N + 256 ^ i * b.toNat) / 2 ^ len) % 2 ^ 64 := by
        rw [Nat.mod_add_mod, pow256, pow_split hi, Nat.mul_assoc,
          Nat.add_mul_div_left _ _ (Nat.two_pow_pos len), Nat.mul_comm b.toNat]
      rw [hstep, ih (i + 1) (N + 256 ^ i * b.toNat) bs (by omega) (by omega) (by
        rw [Nat.pow_succ]
        have : 256 ^ i * b.toNat ≤ 256 ^ i * 255 := Nat.mul_le_mul_left _ (by omega)
        omega)]
      simp only [List.length_cons, Nat.add_lt_add_iff_right, List.take_succ_cons, List.drop_succ_cons,
        leNat]
      congr 4
      rw [Nat.pow_succ]; ring_nf

/-- Closed form of a read: `len` from the first two bytes, then `len` bytes without their unary
prefix. -/
def readSpec (bs : Bytes) : Option (Nat × Bytes) :=
  let len := tz9 (leNat (bs.take 2)) + 1
  if bs.length < len then none
  else some ((leNat (bs.take len) / 2 ^ len) % 2 ^ 64, bs.drop len)

theorem or_comm3 (a b c : Nat) : a ||| b ||| c = (b ||| c) ||| a := by
  rw [Nat.or_assoc, Nat.or_comm]

theorem readU64Slow_eq (bs : Bytes) : readU64Slow bs = readSpec bs := by
  unfold readSpec
  cases bs with
  | nil => simp [readU64Slow]
  | cons b0 bs =>
    have hb0 : b0.toNat < 256 := b0.toNat_lt
    unfold readU64Slow
    by_cases h0 : b0 = 0
    · have h0n : b0.toNat = 0 := by rw [h0]; rfl
      simp only [h0, if_true]
      cases bs with
      | nil =>
        have : tz9 0 = 9 := by decide +kernel
        simp [leNat, this]
      | cons b1 bs =>
        have hb1 : b1.toNat < 256 := b1.toNat_lt
        have e0 : (0 : UInt8).toNat = 0 := rfl
        have es : shl64 b1.toNat 8 = 256 * b1.toNat := by
          unfold shl64; rw [Nat.shiftLeft_eq]; omega
        have e1 : (0 ||| shl64 b1.toNat 8) = 256 * b1.toNat := by rw [es, Nat.zero_or]
        have e2 : (1 <<< 9 ||| 0 ||| shl64 b1.toNat 8) = 256 * b1.toNat ||| 1 <<< 9 := by
          rw [Nat.or_zero, es, Nat.or_comm]
        simp only [e0, e1, e2]
        have e3 : leNat ((0 :: b1 :: bs : Bytes).take 2) = 256 * b1.toNat := by
          simp [leNat]
        rw [e3]
        show slowLoop (tz9 (256 * b1.toNat) + 1) (tz9 (256 * b1.toNat) + 1 - 2) 2
          ((256 * b1.toNat) >>> (tz9 (256 * b1.toNat) + 1)) bs = _
        have hle := tz9_le (256 * b1.toNat)
        have hge : 8 ≤ tz9 (256 * b1.toNat) := by
          by_contra hc
          obtain ⟨g1, g2⟩ := tz_spec (256 * b1.toNat ||| 1 <<< 9) (or512_ne _)
          have g1 : (256 * b1.toNat ||| 1 <<< 9).testBit (tz9 (256 * b1.toNat)) = true := g1
          rw [testBit_or512] at g1
          have e : 256 * b1.toNat = 2 ^ 8 * b1.toNat + 0 := by omega
          have hz : (256 * b1.toNat).testBit (tz9 (256 * b1.toNat)) = false := by
            generalize tz9 (256 * b1.toNat) = t at hc ⊢
            rw [e, Nat.testBit_two_pow_mul_add _ (by decide)]
            simp; omega
          rw [hz] at g1; simp at g1; omega
        generalize tz9 (256 * b1.toNat) = t at hle hge
        have key := slowLoop_spec (t + 1) (by omega) (t + 1 - 2) 2 (256 * b1.toNat) bs
          (by omega) (by omega) (by omega)
        have e4 : (256 * b1.toNat) >>> (t + 1) = 256 * b1.toNat / 2 ^ (t + 1) % 2 ^ 64 := by
          rw [Nat.shiftRight_eq_div_pow, Nat.mod_eq_of_lt]
          apply Nat.lt_of_le_of_lt (Nat.div_le_self _ _)
          omega
        rw [e4, key]
        simp only [List.length_cons]
        obtain ⟨m, rfl⟩ : ∃ m, t = m + 1 := ⟨t - 1, by omega⟩
        have e5 : m + 1 + 1 - 2 = m := by omega
        rw [e5]
        by_cases hl : bs.length < m
        · rw [if_pos hl, if_pos (by omega)]
        · rw [if_neg hl, if_neg (by omega)]
          simp only [List.take_succ_cons, List.drop_succ_cons, leNat, e0]
          congr 4
          omega
    · have h0n : b0.toNat ≠ 0 := by
        intro h; exact h0 (UInt8.toNat_inj.1 h)
      simp only [h0, if_false]
      have e1 : leNat ((b0 :: bs).take 2) = b0.toNat + 256 * leNat (bs.take 1) := by
        simp [leNat]
      rw [e1, tz9_low hb0 h0n, Nat.or_comm]
      show slowLoop (tz9 b0.toNat + 1) (tz9 b0.toNat + 1 - 1) 1 (b0.toNat >>> (tz9 b0.toNat + 1)) bs = _
      have hle : tz9 b0.toNat < 8 := by
        by_contra hc
        apply h0n
        apply Nat.eq_of_testBit_eq
        intro i
        rw [Nat.zero_testBit]
        by_cases hi : i < 8
        · exact tz9_bits _ i (by omega)
        · exact Nat.testBit_lt_two_pow (by
            calc b0.toNat < 2 ^ 8 := hb0
              _ ≤ 2 ^ i := Nat.pow_le_pow_right (by decide) (by omega))
      generalize tz9 b0.toNat = t at hle
      have key := slowLoop_spec (t + 1) (by omega) t 1 b0.toNat bs
          (by omega) (by omega) (by omega)
      have e4 : b0.toNat >>> (t + 1) = b0.toNat / 2 ^ (t + 1) % 2 ^ 64 := by
        rw [Nat.shiftRight_eq_div_pow, Nat.mod_eq_of_lt]
        apply Nat.lt_of_le_of_lt (Nat.div_le_self _ _)
        omega
      have e5 : t + 1 - 1 = t := by omega
      rw [e4, e5, key]
      simp only [List.length_cons, Nat.add_lt_add_iff_right, List.take_succ_cons, List.drop_succ_cons,
        leNat]
      simp

theorem leNat_take_mod (bs : Bytes) (n : Nat) : leNat (bs.take n) = leNat bs % 256 ^ n := by
  induction n generalizing bs with
  | zero => simp [leNat, Nat.mod_one]
  | succ n ih =>
    cases bs with
    | nil => simp [leNat]
    | cons b bs =>
      have hb : b.toNat < 256 := b.toNat_lt
      simp only [List.take_succ_cons, leNat, ih]
      rw [Nat.pow_succ', Nat.mod_mul]
      have h1 : (b.toNat + 256 * leNat bs) % 256 = b.toNat := by omega
      have h2 : (b.toNat + 256 * leNat bs) / 256 = leNat bs := by omega
      rw [h1, h2]

theorem mask (k : Nat) (h : k ≤ 64) : (2 ^ 64 - 1) >>> (64 - k) = 2 ^ k - 1 := by
  rw [Nat.shiftRight_eq_div_pow]
  have e : 2 ^ 64 = 2 ^ (64 - k) * 2 ^ k := by rw [← Nat.pow_add]; congr 1; omega
  rw [e]
  have h1 := Nat.two_pow_pos (64 - k)
  have h2 := Nat.two_pow_pos k
  have : 2 ^ (64 - k) * 2 ^ k - 1 = 2 ^ (64 - k) * (2 ^ k - 1) + (2 ^ (64 - k) - 1) := by
    rw [Nat.mul_sub, Nat.mul_one]
    have : 2 ^ (64 - k) ≤ 2 ^ (64 - k) * 2 ^ k := Nat.le_mul_of_pos_right _ h2
    omega
  rw [this, Nat.mul_add_div h1, Nat.div_eq_of_lt (by omega), Nat.add_zero]

theorem readU64Fast_eq (bs : Bytes) (h : bs.length = 16) :
    some ((readU64Fast bs).1, bs.drop (readU64Fast bs).2) = readSpec bs := by
  unfold readSpec readU64Fast
  have htz : trailingZeros (leNat (bs.take 8) ||| 1 <<< 9) = tz9 (leNat (bs.take 2)) := by
    show tz9 _ = tz9 _
    apply tz9_congr
    intro i hi
    rw [leNat_take_mod, leNat_take_mod, pow256, pow256, Nat.testBit_mod_two_pow,
      Nat.testBit_mod_two_pow]
    have h1 : i < 8 * 8 := by omega
    have h2 : i < 8 * 2 := by omega
    simp [h1, h2]
  simp only [htz]
  have hle := tz9_le (leNat (bs.take 2))
  generalize tz9 (leNat (bs.take 2)) = t at hle
  rw [if_neg (by omega : ¬ bs.length < t + 1)]
  by_cases h8 : t + 1 ≤ 8
  · rw [if_pos h8]
    simp only [Option.some.injEq, Prod.mk.injEq, and_true]
    rw [mask _ (by omega), Nat.and_two_pow_sub_one_eq_mod, Nat.shiftRight_eq_div_pow, ← pow256]
    have : leNat (bs.take 8) % 256 ^ (t + 1) = leNat (bs.take (t + 1)) := by
      rw [← leNat_take_mod, List.take_take]; congr 2; omega
    rw [this, Nat.mod_eq_of_lt]
    apply Nat.lt_of_le_of_lt (Nat.div_le_self _ _)
    calc leNat (bs.take (t + 1)) < 256 ^ (bs.take (t + 1)).length := leNat_lt _
      _ ≤ 256 ^ 8 := Nat.pow_le_pow_right (by decide) (by simp; omega)
      _ = 2 ^ 64 := by decide
  · rw [if_neg h8]
    simp only [Option.some.injEq, Prod.mk.injEq, and_true]
    rw [mask _ (by omega), Nat.and_two_pow_sub_one_eq_mod, ← pow256]
    have hlo : leNat (bs.take 8) < 2 ^ 64 := by
      calc leNat (bs.take 8) < 256 ^ (bs.take 8).length := leNat_lt _
        _ ≤ 256 ^ 8 := Nat.pow_le_pow_right (by decide) (by simp)
        _ = 2 ^ 64 := by decide
    have hhi : leNat (bs.drop 8) % 256 ^ (t + 1 - 8) = leNat ((bs.drop 8).take (t + 1 - 8)) := by
      rw [leNat_take_mod]
    rw [hhi, or_shl _ _ _ (by
      rw [Nat.shiftRight_eq_div_pow, Nat.div_lt_iff_lt_mul (Nat.two_pow_pos _), ← Nat.pow_add]
      have : 64 - (t + 1) + (t + 1) = 64 := by omega
      rwa [this]) (by omega)]
    have e : bs.take (t + 1) = bs.take 8 ++ (bs.drop 8).take (t + 1 - 8) := by
      rw [← List.take_add]; congr 1; omega
    have hl8 : (bs.take 8).length = 8 := by simp; omega
    rw [e, leNat_append, hl8, Nat.shiftRight_eq_div_pow]
    have e2 : 256 ^ 8 = 2 ^ (t + 1) * 2 ^ (64 - (t + 1)) := by
      rw [← Nat.pow_add]
      have : t + 1 + (64 - (t + 1)) = 64 := by omega
      rw [this]; rfl
    rw [e2, Nat.mul_assoc, Nat.add_mul_div_left _ _ (Nat.two_pow_pos _), Nat.mul_comm (2 ^ (64 - _))]

theorem readU64_eq (fill : Nat) (bs : Bytes) : readU64 fill bs = readSpec bs := by
  unfold readU64
  simp only
  split
  · rename_i hl
    have hlen : (bs.take fill).length ≥ 16 := hl
    simp only [List.length_take] at hlen
    have hpre : (bs.take fill).take 16 = bs.take 16 := by
      rw [List.take_take]; congr 1; omega
    rw [hpre]
    have h16 : (bs.take 16).length = 16 := by simp; omega
    have hf := readU64Fast_eq (bs.take 16) h16
    unfold readSpec at hf ⊢
    have e2 : (bs.take 16).take 2 = bs.take 2 := by rw [List.take_take]; congr 1
    rw [e2] at hf
    have hle := tz9_le (leNat (bs.take 2))
    generalize tz9 (leNat (bs.take 2)) = t at hle hf
    simp only at hf ⊢
    rw [if_neg (by omega), Option.some.injEq, Prod.mk.injEq] at hf
    rw [if_neg (by omega), Option.some.injEq, Prod.mk.injEq]
    have e3 : (bs.take 16).take (t + 1) = bs.take (t + 1) := by
      rw [List.take_take]; congr 1; omega
    rw [e3] at hf
    refine ⟨hf.1, ?_⟩
    have hlen2 := congrArg List.length hf.2
    simp only [List.length_drop] at hlen2
    rw [h16] at hlen2
    have hadv : (readU64Fast (bs.take 16)).2 = t + 1 := by
      have : (readU64Fast (bs.take 16)).2 ≤ 16 := by
        unfold readU64Fast
        have := tz9_le (leNat ((bs.take 16).take 8))
        unfold tz9 at this
        simp only
        split <;> simp only <;> omega
      omega
    rw [hadv]
  · exact readU64Slow_eq bs

/-- The bytes written, in closed form. -/
theorem writeU64_eq (v : Nat) (hv : v < 2 ^ 64) :
    ∃ b, b ≤ 9 ∧ v < 2 ^ (7 * (b + 1)) ∧ (b = 0 ∨ 2 ^ (7 * b) ≤ v) ∧ writeU64 v = leBytes (b + 1) ((2 * v + 1) * 2 ^ b) := by
  unfold writeU64
  have hbits : bitLen v ≤ 64 ∧ v < 2 ^ bitLen v ∧ (v < 2 ^ 56 ↔ bitLen v ≤ 56) ∧
      (bitLen v = 0 ∨ 2 ^ (bitLen v - 1) ≤ v) := by
    unfold bitLen
    by_cases h0 : v = 0
    · simp [h0]
    · simp only [h0, if_false]
      have h1 : v.log2 < 64 := (Nat.log2_lt h0).2 hv
      refine ⟨by omega, Nat.lt_log2_self, ?_, Or.inr (Nat.log2_self_le h0)⟩
      rw [← Nat.log2_lt h0]; omega
  generalize bitLen v = bits at hbits
  obtain ⟨h1, h2, h3, h4⟩ := hbits
  have e : 64 / 7 = 9 := by decide
  rw [e]
  simp only
  have hb : bits * 9 / 64 ≤ 9 := by omega
  have hb2 : bits ≤ 7 * (bits * 9 / 64 + 1) := by omega
  have hb3 : bits ≤ 56 → bits * 9 / 64 ≤ 7 := by omega
  have hb4 : 57 ≤ bits → 8 ≤ bits * 9 / 64 := by omega
  have hb5 : bits * 9 / 64 = 0 ∨ (bits ≠ 0 ∧ 7 * (bits * 9 / 64) ≤ bits - 1) := by omega
  generalize bits * 9 / 64 = b at hb hb2 hb3 hb4 hb5
  refine ⟨b, hb, Nat.lt_of_lt_of_le h2 (Nat.pow_le_pow_right (by decide) hb2), ?_, ?_⟩
  · rcases hb5 with hb5 | ⟨hb5, hb6⟩
    · exact Or.inl hb5
    · rcases h4 with h4 | h4
      · exact absurd h4 hb5
      · exact Or.inr (Nat.le_trans (Nat.pow_le_pow_right (by decide) hb6) h4)
  have e7 : 1 <<< (8 * 7) = 2 ^ 56 := by decide
  have hor : ∀ x, (2 * x) ||| 1 = 2 * x + 1 := by
    intro x
    have := Nat.two_pow_add_eq_or_of_lt (i := 1) (b := 1) (by decide) x
    simpa using this.symm
  rw [e7]
  by_cases hlt : v < 2 ^ 56
  · rw [if_pos hlt]
    have hb7 := hb3 (h3.1 hlt)
    have e1 : shl64 v 1 = 2 * v := by unfold shl64; rw [Nat.shiftLeft_eq]; omega
    rw [e1, hor, leBytes_take _ _ _ (by omega)]
    unfold shl64
    rw [Nat.shiftLeft_eq, Nat.mod_eq_of_lt]
    calc (2 * v + 1) * 2 ^ b ≤ (2 * v + 1) * 2 ^ 7 :=
          Nat.mul_le_mul_left _ (Nat.pow_le_pow_right (by decide) hb7)
      _ < 2 ^ 64 := by omega
  · rw [if_neg hlt]
    have hb8 := hb4 (by omega)
    have e1 : shl64 (shl64 v 1 ||| 1) b = ((2 * v + 1) * 2 ^ b) % 2 ^ 64 := by
      unfold shl64
      rw [Nat.shiftLeft_eq, Nat.shiftLeft_eq]
      have : v * 2 ^ 1 % 2 ^ 64 = 2 * (v % 2 ^ 63) := by omega
      rw [this, hor]
      have h64 : 2 ^ 64 = 2 ^ b * 2 ^ (64 - b) := pow_split (by omega)
      rw [Nat.mul_comm, Nat.mul_comm (2 * v + 1), h64, Nat.mul_mod_mul_left, Nat.mul_mod_mul_left]
      congr 1
      -- 2 * (v % 2^63) + 1 and 2 * v + 1 agree modulo 2^64
      have hd : 2 ^ (64 - b) ∣ 2 ^ 64 := Nat.pow_dvd_pow 2 (by omega)
      have : (2 * (v % 2 ^ 63) + 1) % 2 ^ 64 = (2 * v + 1) % 2 ^ 64 := by omega
      have h' := congrArg (· % 2 ^ (64 - b)) this
      simp only [Nat.mod_mod_of_dvd _ hd] at h'
      exact h'
    have e2 : v >>> (64 - (b + 1)) = ((2 * v + 1) * 2 ^ b) / 2 ^ 64 := by
      rw [Nat.shiftRight_eq_div_pow, pow_split (show b ≤ 64 by omega), Nat.mul_comm (2 * v + 1),
        Nat.mul_div_mul_left _ _ (Nat.two_pow_pos b)]
      have h64 : 2 ^ (64 - b) = 2 * 2 ^ (64 - (b + 1)) := by
        rw [← Nat.pow_succ']; congr 1; omega
      rw [h64, ← Nat.div_div_eq_div_mul]
      congr 1; omega
    rw [e1, e2, leBytes_take _ _ _ (by omega)]
    have e3 : b + 1 = 8 + (b + 1 - 8) := by omega
    conv => rhs; rw [e3, leBytes_add]
    have : (256 : Nat) ^ 8 = 2 ^ 64 := by decide
    rw [← this, leBytes_mod]

theorem tz9_odd_mul (m b : Nat) (hb : b ≤ 9) : tz9 ((2 * m + 1) * 2 ^ b) = b := by
  apply tz_unique
  · rw [testBit_or512, Nat.testBit_mul_two_pow]; simp
  · intro j hj
    rw [testBit_or512, Nat.testBit_mul_two_pow]
    have h1 : ¬ b ≤ j := by omega
    have h2 : ¬ 9 = j := by omega
    have h3 : ¬ j = 9 := by omega
    simp [h1, h3]

theorem readSpec_writeU64 (v : Nat) (hv : v < 2 ^ 64) (rest : Bytes) :
    readSpec (writeU64 v ++ rest) = some (v, rest) := by
  obtain ⟨b, hb, hlt, -, hw⟩ := writeU64_eq v hv
  rw [hw]
  have hM : (2 * v + 1) * 2 ^ b < 256 ^ (b + 1) := by
    rw [pow256]
    have : 8 * (b + 1) = (7 * (b + 1) + 1) + b := by omega
    rw [this, Nat.pow_add]
    apply Nat.mul_lt_mul_of_pos_right _ (Nat.two_pow_pos b)
    rw [Nat.pow_succ]; omega
  generalize hMM : (2 * v + 1) * 2 ^ b = M at hM
  have hlen := leBytes_length (b + 1) M
  have htz : tz9 (leNat ((leBytes (b + 1) M ++ rest).take 2)) = b := by
    have : tz9 (leNat ((leBytes (b + 1) M ++ rest).take 2)) =
        tz9 (leNat ((leBytes (b + 1) M ++ rest))) := by
      apply tz9_congr
      intro i hi
      rw [leNat_take_mod, pow256, Nat.testBit_mod_two_pow]
      have h2 : i < 8 * 2 := by omega
      simp [h2]
    rw [this, leNat_append, hlen, leNat_leBytes _ _ hM, ← hMM]
    have e : (2 * v + 1) * 2 ^ b + 256 ^ (b + 1) * leNat rest
        = (2 * (v + 2 ^ (7 * b + 7) * leNat rest) + 1) * 2 ^ b := by
      rw [pow256]
      have : 8 * (b + 1) = (7 * b + 7) + 1 + b := by omega
      rw [this, Nat.pow_add, Nat.pow_succ]
      ring
    rw [e, tz9_odd_mul _ _ hb]
  unfold readSpec
  rw [htz]
  simp only
  rw [if_neg (by rw [List.length_append, hlen]; omega)]
  have e1 : (leBytes (b + 1) M ++ rest).take (b + 1) = leBytes (b + 1) M := by
    rw [List.take_append_of_le_length (by omega), List.take_of_length_le (by omega)]
  have e2 : (leBytes (b + 1) M ++ rest).drop (b + 1) = rest := by
    rw [List.drop_append_of_le_length (by omega), List.drop_of_length_le (by omega)]; rfl
  rw [e1, e2, leNat_leBytes _ _ hM, ← hMM]
  have e3 : (2 * v + 1) * 2 ^ b / 2 ^ (b + 1) = v := by
    rw [Nat.pow_succ', Nat.mul_div_mul_right _ _ (Nat.two_pow_pos b)]; omega
  rw [e3, Nat.mod_eq_of_lt hv]

theorem readSpec_append {bs rest : Bytes} {v : Nat} (h : readSpec bs = some (v, rest)) (ext : Bytes) :
    readSpec (bs ++ ext) = some (v, rest ++ ext) := by
  unfold readSpec at h ⊢
  simp only at h ⊢
  split at h
  · simp at h
  · rename_i hl
    rw [Option.some.injEq, Prod.mk.injEq] at h
    obtain ⟨h1, h2⟩ := h
    have htz : tz9 (leNat ((bs ++ ext).take 2)) = tz9 (leNat (bs.take 2)) := by
      by_cases h2 : 2 ≤ bs.length
      · rw [List.take_append_of_le_length h2]
      · have hb : bs.length = 1 := by omega
        obtain ⟨b, rfl⟩ := List.length_eq_one_iff.1 hb
        have hb : b.toNat < 256 := b.toNat_lt
        have hne : b.toNat ≠ 0 := by
          intro h0
          have : tz9 0 = 9 := by decide +kernel
          simp [leNat, h0, this] at hl
        have : leNat (([b] ++ ext).take 2) = b.toNat + 256 * leNat (ext.take 1) := by
          simp [leNat]
        rw [this, tz9_low hb hne]
        simp [leNat]
    rw [htz]
    rw [if_neg (by rw [List.length_append]; omega)]
    rw [List.take_append_of_le_length (by omega), List.drop_append_of_le_length (by omega), h1, h2]

theorem readSpec_shape {bs rest : Bytes} {v : Nat} (h : readSpec bs = some (v, rest)) :
    v < 2 ^ 64 ∧ ∃ pre, bs = pre ++ rest ∧ 1 ≤ pre.length ∧ pre.length ≤ 10 := by
  unfold readSpec at h
  simp only at h
  split at h
  · simp at h
  · rename_i hl
    rw [Option.some.injEq, Prod.mk.injEq] at h
    obtain ⟨h1, h2⟩ := h
    have := tz9_le (leNat (bs.take 2))
    refine ⟨by rw [← h1]; exact Nat.mod_lt _ (by decide), bs.take (tz9 (leNat (bs.take 2)) + 1),
      by rw [← h2, List.take_append_drop], ?_, ?_⟩ <;> rw [List.length_take] <;> omega

end Varisat.Vli
