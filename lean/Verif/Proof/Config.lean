import Verif.Spec.Config
/-!
# Proofs about configuration updates
-/
namespace Varisat.Config

theorem F32.toNat_and_low (x : F32) (k : Nat) (hk : k ≤ 32) : (x &&& BitVec.ofNat 32 (2 ^ k - 1)).toNat = x.toNat % 2 ^ k := by
  rw [BitVec.toNat_and, BitVec.toNat_ofNat, Nat.mod_eq_of_lt, Nat.and_two_pow_sub_one_eq_mod]
  have := Nat.pow_le_pow_right (n := 2) (by omega) hk
  have : 0 < 2 ^ k := Nat.pow_pos (by omega)
  omega

theorem F32.key_eq (x : F32) : x.key = if 2 ^ 31 ≤ x.toNat then -((x.toNat % 2 ^ 31 : Nat) : Int) else (x.toNat : Int) := by
  have h := x.toNat_and_low 31 (by omega)
  have hm : x.msb = decide (2 ^ 31 ≤ x.toNat) := by
    rw [BitVec.msb_eq_decide]
  unfold F32.key
  rw [hm, show (0x7FFFFFFF#32) = BitVec.ofNat 32 (2 ^ 31 - 1) from rfl, h]
  by_cases hx : 2 ^ 31 ≤ x.toNat
  · simp [hx]
  · simp only [hx, decide_false, Bool.false_eq_true, if_false]
    rw [Nat.mod_eq_of_lt (by omega)]

/-- A number below infinity is not NaN. -/
theorem F32.not_nan {x : F32} (h : x.toNat < 0x7F800000) : x.isNaN = false := by
  unfold F32.isNaN
  have : ¬ (x &&& 0x7F800000#32) = 0x7F800000#32 := by
    intro k
    have h2 : (x &&& 0x7F800000#32).toNat ≤ x.toNat := by
      rw [BitVec.toNat_and]; exact Nat.and_le_left
    rw [k] at h2
    have : (0x7F800000#32).toNat = 0x7F800000 := rfl
    omega
  simp [this]

theorem F32.key_half : half.key = 0x3F000000 := by decide
theorem F32.key_one : one.key = 0x3F800000 := by decide
theorem F32.key_sixteenth : sixteenth.key = 0x3D800000 := by decide

theorem F32.lt_one (x : F32) (h : 0 ≤ x.key) : x.lt one = decide (x.toNat < 0x3F800000 ∨ x.toNat = 2 ^ 31) := by
  have hk := x.key_eq
  have hl := x.isLt
  unfold F32.lt
  rw [F32.key_one]
  have ho : one.isNaN = false := by decide
  rw [ho]
  by_cases hx : 2 ^ 31 ≤ x.toNat
  · rw [if_pos hx] at hk
    have h0 : x.toNat = 2 ^ 31 := by omega
    have : x = 0x80000000#32 := BitVec.eq_of_toNat_eq h0
    subst this
    decide
  · rw [if_neg hx] at hk
    by_cases hy : x.toNat < 0x3F800000
    · rw [F32.not_nan (by omega), decide_eq_true (by omega : x.key < 0x3F800000), decide_eq_true (.inl hy)]; rfl
    · have : ¬ x.key < 0x3F800000 := by omega
      simp [this]; omega

/-- The range check in terms of the bits. -/
theorem inRange_iff (x : F32) : inRange half one x = true ↔ 0x3F000000 ≤ x.toNat ∧ x.toNat < 0x3F800000 := by
  have hk := x.key_eq
  unfold inRange
  rw [Bool.and_eq_true]
  constructor
  · rintro ⟨h1, h2⟩
    have h3 : half.key ≤ x.key := by
      unfold F32.le at h1; simp at h1; exact h1.2
    rw [F32.key_half] at h3
    rw [F32.lt_one x (by omega)] at h2
    have h2 := of_decide_eq_true h2
    have := x.isLt
    split at hk <;> omega
  · rintro ⟨h1, h2⟩
    have hn : ¬ 2 ^ 31 ≤ x.toNat := by omega
    rw [if_neg hn] at hk
    constructor
    · unfold F32.le
      rw [F32.not_nan (by omega : x.toNat < _), F32.key_half]
      have : half.isNaN = false := by decide
      rw [this]; simp; omega
    · rw [F32.lt_one x (by omega)]; simp; omega

/-- The documented range in terms of the bits. -/
theorem decayOk_iff (x : F32) : DecayOk x ↔ 0x3F000000 ≤ x.toNat ∧ x.toNat < 0x3F800000 := by
  have hl := x.isLt
  have hm : x.toNat % 2 ^ 23 < 2 ^ 23 := Nat.mod_lt _ (by omega)
  have hdiv := Nat.div_add_mod x.toNat (2 ^ 23)
  have p148 : (2 : Int) ^ 148 = 2 ^ 23 * 2 ^ 125 := by decide
  have p149 : (2 : Int) ^ 149 = 2 ^ 24 * 2 ^ 125 := by decide
  unfold DecayOk F32.units
  simp only
  generalize hM : x.toNat % 2 ^ 23 = m at *
  by_cases hs : 2 ^ 31 ≤ x.toNat
  · -- negative
    rw [if_pos hs]
    constructor
    · rintro ⟨n, h, h1, h2⟩
      exfalso
      have : n ≤ 0 := by
        split at h
        · cases h
        · split at h
          · injection h with h; omega
          · injection h with h
            have : (0 : Int) ≤ ((2 ^ 23 + m : Nat) : Int) * 2 ^ (x.toNat / 2 ^ 23 % 2 ^ 8 - 1) :=
              Int.mul_nonneg (by omega) (Int.pow_nonneg (by omega))
            omega
      have : (0 : Int) < 2 ^ 148 := by decide
      omega
    · intro h; omega
  rw [if_neg hs]
  have hE : x.toNat / 2 ^ 23 % 2 ^ 8 = x.toNat / 2 ^ 23 := Nat.mod_eq_of_lt (by omega)
  rw [hE]
  generalize x.toNat / 2 ^ 23 = e at *
  have key : (0x3F000000 ≤ x.toNat ∧ x.toNat < 0x3F800000) ↔ e = 126 := by omega
  rw [key]
  constructor
  · rintro ⟨n, h, h1, h2⟩
    split at h
    · cases h
    rename_i he
    split at h
    · exfalso
      injection h with h
      have : (2 : Int) ^ 23 < 2 ^ 148 := by decide
      omega
    rename_i he0
    injection h with h
    rw [Int.one_mul] at h
    rcases Nat.lt_or_ge e 126 with g | g
    · exfalso
      have : (2 : Int) ^ (e - 1) ≤ 2 ^ 124 := by
        have := Nat.pow_le_pow_right (n := 2) (by omega) (show e - 1 ≤ 124 by omega)
        exact_mod_cast this
      have h3 : ((2 ^ 23 + m : Nat) : Int) * 2 ^ (e - 1) ≤ ((2 ^ 23 + m : Nat) : Int) * 2 ^ 124 :=
        Int.mul_le_mul_of_nonneg_left this (by omega)
      have h4 : ((2 ^ 23 + m : Nat) : Int) * 2 ^ 124 < 2 ^ 24 * 2 ^ 124 :=
        Int.mul_lt_mul_of_pos_right (by omega) (by decide)
      have : (2 : Int) ^ 24 * 2 ^ 124 = 2 ^ 148 := by decide
      omega
    · rcases Nat.lt_or_ge 126 e with g2 | g2
      · exfalso
        have : (2 : Int) ^ 126 ≤ 2 ^ (e - 1) := by
          have := Nat.pow_le_pow_right (n := 2) (by omega) (show 126 ≤ e - 1 by omega)
          exact_mod_cast this
        have h3 : ((2 ^ 23 + m : Nat) : Int) * 2 ^ 126 ≤ ((2 ^ 23 + m : Nat) : Int) * 2 ^ (e - 1) :=
          Int.mul_le_mul_of_nonneg_left this (by omega)
        have h4 : (2 : Int) ^ 23 * 2 ^ 126 ≤ ((2 ^ 23 + m : Nat) : Int) * 2 ^ 126 :=
          Int.mul_le_mul_of_nonneg_right (by omega) (by decide)
        have : (2 : Int) ^ 23 * 2 ^ 126 = 2 ^ 149 := by decide
        omega
      · omega
  · rintro rfl
    refine ⟨((2 ^ 23 + m : Nat) : Int) * 2 ^ 125, by simp, ?_, ?_⟩
    · rw [p148]; exact Int.mul_le_mul_of_nonneg_right (by omega) (by decide)
    · rw [p149]; exact Int.mul_lt_mul_of_pos_right (by omega) (by decide)

theorem inRange_decay (x : F32) : inRange half one x = true ↔ DecayOk x := by
  rw [inRange_iff, decayOk_iff]

theorem ensure_ok {f : Field} {p : α → Bool} {o : Option α} : ensure f p o = .ok () ↔ ∀ x, o = some x → p x = true := by
  cases o with
  | none => simp [ensure]
  | some v => by_cases h : p v <;> simp [ensure, h]

theorem check_ok (u : Update) : u.check = .ok () ↔ u.InRange := by
  have hb : ∀ {a : Except Field Unit} {b : Except Field Unit}, (a >>= fun _ => b) = .ok () ↔ a = .ok () ∧ b = .ok () := by
    intro a b
    cases a with
    | error _ => exact ⟨fun h => (by cases h), fun h => (by cases h.1)⟩
    | ok _ => exact ⟨fun h => ⟨rfl, h⟩, fun h => h.2⟩
  unfold Update.check Update.InRange
  rw [hb, hb, hb, hb]
  simp only [ensure_ok, inRange_decay, inFrom, decide_eq_true_eq]

theorem set_sets (u : Update) (c : SolverConfig) : u.Sets c (u.set c) := by
  unfold Update.Sets Update.set
  refine ⟨?_, ?_, ?_, ?_, ?_⟩ <;> simp only <;> split <;> simp_all

theorem Update.Sets.eq {u : Update} {c d d' : SolverConfig} (h : u.Sets c d) (h' : u.Sets c d') : d = d' := by
  obtain ⟨a1, a2, a3, a4, a5⟩ := h
  obtain ⟨b1, b2, b3, b4, b5⟩ := h'
  cases d; cases d'
  simp_all

theorem getD_ok {P : α → Prop} {o : Option α} {d : α} (h1 : ∀ x, o = some x → P x) (h2 : P d) : P (o.getD d) := by
  cases o with
  | none => exact h2
  | some v => exact h1 v rfl

theorem Update.Sets.inRange {u : Update} {c d : SolverConfig} (h : u.Sets c d) (hu : u.InRange) (hc : c.InRange) :
    d.InRange := by
  obtain ⟨a1, a2, a3, a4, a5⟩ := h
  obtain ⟨b1, b2, b3, b4, b5⟩ := hu
  obtain ⟨c1, c2, c3, c4, c5⟩ := hc
  refine ⟨?_, ?_, ?_, ?_, ?_⟩
  · rw [a1]; exact getD_ok b1 c1
  · rw [a2]; exact getD_ok b2 c2
  · rw [a3]; exact getD_ok (P := fun v : BitVec 64 => 1 ≤ v.toNat) b3 c3
  · rw [a4]; exact getD_ok (P := fun v : BitVec 64 => 1 ≤ v.toNat) b4 c4
  · rw [a5]; exact getD_ok (P := fun v : BitVec 64 => 1 ≤ v.toNat) b5 c5

theorem default_inRange : SolverConfig.default.InRange := by
  unfold SolverConfig.InRange
  simp only [decayOk_iff]
  decide

theorem setDecay_ok (recip : F32 → F32) {x : F32} (h : DecayOk x) : setDecay recip x = some (recip x) := by
  rw [decayOk_iff] at h
  have hk := x.key_eq
  rw [if_neg (by omega)] at hk
  unfold setDecay
  rw [if_pos, if_pos]
  · unfold F32.lt
    rw [F32.not_nan (by omega : x.toNat < _), F32.key_sixteenth]
    have : sixteenth.isNaN = false := by decide
    rw [this]; simp; omega
  · rw [F32.lt_one x (by omega)]; simp; omega

/-- What holds between calls. -/
structure St.Ok (recip : F32 → F32) (s : St) : Prop where
  range : s.config.InRange
  vsids : s.vsidsInvDecay = recip s.config.vsidsDecay
  clause : s.clauseInvDecay = recip s.config.clauseActivityDecay

theorem St.Ok.configure {recip : F32 → F32} {s : St} (h : s.Ok recip) (u : Update) :
    (¬ u.InRange ∧ ∃ f, s.configure recip u = some (s, .error f)) ∨
    (u.InRange ∧ ∃ s', s.configure recip u = some (s', .ok ()) ∧ s'.Ok recip ∧ u.Sets s.config s'.config) := by
  unfold St.configure Update.apply
  cases hc : u.check with
  | error f =>
    refine .inl ⟨fun k => ?_, f, rfl⟩
    rw [(check_ok u).2 k] at hc; cases hc
  | ok _ =>
    have hu := (check_ok u).1 hc
    have hs := set_sets u s.config
    have hr := hs.inRange hu h.range
    refine .inr ⟨hu, ⟨u.set s.config, recip (u.set s.config).vsidsDecay, recip (u.set s.config).clauseActivityDecay⟩, ?_,
      ⟨hr, rfl, rfl⟩, hs⟩
    simp only [setDecay_ok recip hr.1, setDecay_ok recip hr.2.1]

theorem Ran.ok {recip : F32 → F32} {h : List (Update × Except Field Unit)} {s : St} (r : Ran recip h s) : s.Ok recip := by
  induction r with
  | new => exact ⟨default_inRange, rfl, rfl⟩
  | call r k ih =>
    rename_i u _
    rcases ih.configure u with ⟨_, f, q⟩ | ⟨_, t, q, h1, _⟩
    · rw [q] at k; injection k with k; injection k with k1 k2; subst k1; exact ih
    · rw [q] at k; injection k with k; injection k with k1 k2; subst k1; exact h1

theorem merge_sets {u v : Update} {c d d' : SolverConfig} (h1 : u.Sets c d) (h2 : v.Sets d d') :
    (u.merge v).Sets c d' := by
  obtain ⟨a1, a2, a3, a4, a5⟩ := h1
  obtain ⟨b1, b2, b3, b4, b5⟩ := h2
  unfold Update.Sets Update.merge
  refine ⟨?_, ?_, ?_, ?_, ?_⟩
  · rw [b1, a1]; simp only; cases v.vsidsDecay <;> rfl
  · rw [b2, a2]; simp only; cases v.clauseActivityDecay <;> rfl
  · rw [b3, a3]; simp only; cases v.reduceLocalsInterval <;> rfl
  · rw [b4, a4]; simp only; cases v.reduceMidsInterval <;> rfl
  · rw [b5, a5]; simp only; cases v.lubyRestartIntervalScale <;> rfl

theorem merge_inRange {u v : Update} (h1 : u.InRange) (h2 : v.InRange) : (u.merge v).InRange := by
  obtain ⟨a1, a2, a3, a4, a5⟩ := h1
  obtain ⟨b1, b2, b3, b4, b5⟩ := h2
  unfold Update.InRange Update.merge
  refine ⟨?_, ?_, ?_, ?_, ?_⟩ <;> simp only <;> intro x hx <;> split at hx <;> simp_all

theorem merge_inRange_right {u v : Update} (h : (u.merge v).InRange) : v.InRange := by
  obtain ⟨a1, a2, a3, a4, a5⟩ := h
  unfold Update.merge at a1 a2 a3 a4 a5
  refine ⟨fun x hx => ?_, fun x hx => ?_, fun x hx => ?_, fun x hx => ?_, fun x hx => ?_⟩
  · exact a1 x (by simp only [hx])
  · exact a2 x (by simp only [hx])
  · exact a3 x (by simp only [hx])
  · exact a4 x (by simp only [hx])
  · exact a5 x (by simp only [hx])

end Varisat.Config
