import Verif.Proof.Vli
/-!
# C09, C10: the variable-length integer encoding of native proofs

`Vli.readU64 fill bs` is a read from a reader whose remaining input is `bs` and of which the first
`fill` bytes are buffered. `none` is an I/O error.
-/
namespace Varisat

/-- Little-endian value of a byte string (specification). -/
def leValue : Bytes → Nat
  | [] => 0
  | b :: bs => b.toNat + 256 * leValue bs

theorem leValue_eq (bs : Bytes) : leValue bs = Vli.leNat bs := by
  induction bs with
  | nil => rfl
  | cons b bs ih => simp only [leValue, Vli.leNat, ih]

/-- **C09**: writing any 64-bit number and reading it back gives the number and consumes exactly the
bytes written, for every continuation of the input and every buffer fill level. -/
theorem C09.roundtrip (v : Nat) (hv : v < 2 ^ 64) (fill : Nat) (rest : Bytes) :
    Vli.readU64 fill (Vli.writeU64 v ++ rest) = some (v, rest) := by
  rw [Vli.readU64_eq, Vli.readSpec_writeU64 v hv]

/-- Test: 2^56 takes the long path (9 bytes). -/
example : Vli.writeU64 (2 ^ 56) = [0, 1, 0, 0, 0, 0, 0, 0, 2] ∧
    Vli.readU64 99 (Vli.writeU64 (2 ^ 56) ++ [7]) = some (2 ^ 56, [7]) :=
  ⟨by decide +kernel, C09.roundtrip _ (by decide) _ _⟩

/-- **C09** (documented layout, `vli_enc.rs:6-16`): the encoding of `v` has the least number `n` of
7-bit groups that can hold `v`, and read as one little-endian number it is `n - 1` zero bits, a one
bit, then the bits of `v`. -/
theorem C09.format (v : Nat) (hv : v < 2 ^ 64) : ∃ n, 1 ≤ n ∧ n ≤ 10 ∧
    (Vli.writeU64 v).length = n ∧ v < 2 ^ (7 * n) ∧ (n = 1 ∨ 2 ^ (7 * (n - 1)) ≤ v) ∧
    leValue (Vli.writeU64 v) = 2 ^ (n - 1) + 2 ^ n * v := by
  obtain ⟨b, hb, hlt, hmin, hw⟩ := Vli.writeU64_eq v hv
  refine ⟨b + 1, by omega, by omega, by rw [hw, Vli.leBytes_length], hlt, by simpa using hmin, ?_⟩
  have hM : (2 * v + 1) * 2 ^ b < 256 ^ (b + 1) := by
    rw [Vli.pow256]
    have : 8 * (b + 1) = (7 * (b + 1) + 1) + b := by omega
    rw [this, Nat.pow_add]
    apply Nat.mul_lt_mul_of_pos_right _ (Nat.two_pow_pos b)
    rw [Nat.pow_succ]; omega
  rw [hw, leValue_eq, Vli.leNat_leBytes _ _ hM, Nat.add_sub_cancel, Nat.pow_succ]
  ring

/-- **C10**: the result of a read does not depend on how much is buffered: the 16-byte fast path and
the byte-wise path agree on every input. -/
theorem C10.buffer_independent (fill fill' : Nat) (bs : Bytes) :
    Vli.readU64 fill bs = Vli.readU64 fill' bs := by
  rw [Vli.readU64_eq, Vli.readU64_eq]

/-- Test: an overlong encoding (no writer produces it) whose two paths are different code. -/
example : Vli.readU64 16 (List.replicate 16 0) = Vli.readU64 3 (List.replicate 16 0) ∧
    Vli.readU64 3 (List.replicate 16 0) = some (0, List.replicate 6 0) :=
  ⟨C10.buffer_independent _ _ _, by decide +kernel⟩

/-- **C10**: a successful read consumes between 1 and 10 bytes and yields a 64-bit number; the same
value is read whatever follows those bytes, and input that stops inside them is an error. -/
theorem C10.self_delimiting (fill : Nat) (bs rest : Bytes) (v : Nat)
    (h : Vli.readU64 fill bs = some (v, rest)) :
    v < 2 ^ 64 ∧ ∃ pre, bs = pre ++ rest ∧ 1 ≤ pre.length ∧ pre.length ≤ 10 ∧
      (∀ f ext, Vli.readU64 f (pre ++ ext) = some (v, ext)) ∧
      (∀ f p q, pre = p ++ q → q ≠ [] → Vli.readU64 f p = none) := by
  rw [Vli.readU64_eq] at h
  obtain ⟨hv, pre, hpre, h1, h10⟩ := Vli.readSpec_shape h
  have hpre0 : Vli.readSpec pre = some (v, []) := by
    cases hp : Vli.readSpec pre with
    | none =>
      exfalso
      have : Vli.readSpec bs ≠ none := by rw [h]; simp
      apply this
      unfold Vli.readSpec at h hp ⊢
      simp only at h hp ⊢
      split at hp
      · rename_i hl
        split
        · rfl
        · rename_i hl2
          rw [if_neg hl2, Option.some.injEq, Prod.mk.injEq] at h
          have hlen := congrArg List.length h.2
          have hlb := congrArg List.length hpre
          rw [List.length_drop] at hlen
          rw [List.length_append] at hlb
          have htz : Vli.tz9 (Vli.leNat (bs.take 2)) + 1 = pre.length := by omega
          have : Vli.tz9 (Vli.leNat (pre.take 2)) = Vli.tz9 (Vli.leNat (bs.take 2)) := by
            by_cases h2 : 2 ≤ pre.length
            · rw [hpre, List.take_append_of_le_length h2]
            · have hb : pre.length = 1 := by omega
              obtain ⟨b, rfl⟩ := List.length_eq_one_iff.1 hb
              have hb : b.toNat < 256 := b.toNat_lt
              have hz : Vli.tz9 (Vli.leNat (bs.take 2)) = 0 := by simp at htz; exact htz
              have hne : b.toNat ≠ 0 := by
                intro h0
                rw [hpre] at hz
                obtain ⟨g, -⟩ := Vli.tz_spec (Vli.leNat (([b] ++ rest).take 2) ||| 1 <<< 9)
                  (Vli.or512_ne _)
                have g : (Vli.leNat (([b] ++ rest).take 2) ||| 1 <<< 9).testBit
                  (Vli.tz9 (Vli.leNat (([b] ++ rest).take 2))) = true := g
                rw [hz, Vli.testBit_or512] at g
                simp [Vli.leNat, h0] at g
                omega
              have : Vli.leNat (([b] ++ rest).take 2) = b.toNat + 256 * Vli.leNat (rest.take 1) := by
                simp [Vli.leNat]
              rw [hpre, this, Vli.tz9_low hb hne]
              simp [Vli.leNat]
          omega
      · simp at hp
    | some r =>
      obtain ⟨v', rest'⟩ := r
      have := Vli.readSpec_append hp rest
      rw [← hpre, h, Option.some.injEq, Prod.mk.injEq] at this
      obtain ⟨e1, e2⟩ := this
      have : rest' = [] := by
        have := congrArg List.length e2
        rw [List.length_append] at this
        exact List.length_eq_zero_iff.1 (by omega)
      rw [this, e1]
  refine ⟨hv, pre, hpre, h1, h10, ?_, ?_⟩
  · intro f ext
    rw [Vli.readU64_eq, Vli.readSpec_append hpre0]; rfl
  · intro f p q hpq hq
    rw [Vli.readU64_eq]
    cases hp : Vli.readSpec p with
    | none => rfl
    | some r =>
      obtain ⟨v', rest'⟩ := r
      exfalso
      have := Vli.readSpec_append hp q
      rw [← hpq, hpre0, Option.some.injEq, Prod.mk.injEq] at this
      have := congrArg List.length this.2
      rw [List.length_append] at this
      exact hq (List.length_eq_zero_iff.1 (by simp at this; omega))

/-- The hypothesis of `C10.self_delimiting` is met by a two-byte encoding. -/
example : Vli.readU64 0 [0x02, 0x03, 0xff] = some (192, [0xff]) := by decide +kernel

end Varisat
