import Verif.Spec.Dimacs
import Verif.Model.Dimacs
import Mathlib.Data.List.Forall2
/-! Splitting the bytes of a header line at white space is splitting its characters. -/
namespace Varisat.Spec.Utf8

theorem further_spec (n lo hi acc : Nat) (bs : Bytes) (hlo : 0x80 ≤ lo) (hhi : hi ≤ 0xBF) :
    ∀ b ∈ bs.take (further n lo hi acc bs).2, 0x80 ≤ b.toNat ∧ b.toNat ≤ 0xBF := by
  induction n generalizing lo hi acc bs with
  | zero => simp [further]
  | succ n ih =>
    cases bs with
    | nil => simp
    | cons b bs =>
      unfold further
      split
      · intro x hx
        simp only [List.take_succ_cons, List.mem_cons] at hx
        rcases hx with rfl | hx
        · omega
        · exact ih 0x80 0xBF _ bs (by omega) (by omega) x hx
      · simp

theorem char_rest (b : UInt8) (bs : Bytes) : ∀ x ∈ bs.take (char b bs).2, 0x80 ≤ x.toNat ∧ x.toNat ≤ 0xBF := by
  unfold char
  split
  · simp
  · split
    · rename_i n lo hi acc h
      apply further_spec <;>
      · unfold lead at h
        repeat' split at h
        all_goals first | cases h | skip
        all_goals omega
    · simp

/-- The code of a character of several bytes. -/
theorem char_cases (b : UInt8) (bs : Bytes) (hb : ¬ b.toNat < 0x80) :
    (char b bs).1 = replacement ∨
    (∃ x r, bs = x :: r ∧ 0xC2 ≤ b.toNat ∧ b.toNat ≤ 0xDF ∧ 0x80 ≤ x.toNat ∧ x.toNat ≤ 0xBF ∧ char b bs = (b.toNat % 32 * 64 + x.toNat % 64, 1)) ∨
    (∃ x y r, bs = x :: y :: r ∧ 0xE0 ≤ b.toNat ∧ b.toNat ≤ 0xEF ∧ (b.toNat = 0xE0 → 0xA0 ≤ x.toNat) ∧ 0x80 ≤ x.toNat ∧ x.toNat ≤ 0xBF ∧ 0x80 ≤ y.toNat ∧ y.toNat ≤ 0xBF ∧
      char b bs = ((b.toNat % 16 * 64 + x.toNat % 64) * 64 + y.toNat % 64, 2)) ∨
    0x10000 ≤ (char b bs).1 := by
  unfold char
  rw [if_neg hb]
  cases h : lead b.toNat with
  | none => exact .inl rfl
  | some p =>
    obtain ⟨n, lo, hi, acc⟩ := p
    simp only
    have two : 0x80 ≤ lo → hi ≤ 0xBF → (further 2 lo hi acc bs).1 = replacement ∨ ∃ x y r, bs = x :: y :: r ∧ lo ≤ x.toNat ∧ x.toNat ≤ hi ∧
        0x80 ≤ y.toNat ∧ y.toNat ≤ 0xBF ∧ further 2 lo hi acc bs = ((acc * 64 + x.toNat % 64) * 64 + y.toNat % 64, 2) := by
      intro _ _
      rcases bs with _ | ⟨x, _ | ⟨y, r⟩⟩
      · exact .inl rfl
      · simp only [further]; split <;> exact .inl rfl
      · by_cases hx : lo ≤ x.toNat ∧ x.toNat ≤ hi
        · by_cases hy : 0x80 ≤ y.toNat ∧ y.toNat ≤ 0xBF
          · refine .inr ⟨x, y, r, rfl, hx.1, hx.2, hy.1, hy.2, ?_⟩
            simp only [further, hx, hy, and_self, if_true]
          · simp only [further, hx, hy, and_self, if_true, if_false]; exact .inl trivial
        · simp only [further, hx, if_false]; exact .inl trivial
    have three : 0x10 ≤ acc * 64 + lo % 64 → (∀ x, lo ≤ x → x ≤ hi → lo % 64 ≤ x % 64) → (further 3 lo hi acc bs).1 = replacement ∨ 0x10000 ≤ (further 3 lo hi acc bs).1 := by
      intro ha hm
      rcases bs with _ | ⟨x, _ | ⟨y, _ | ⟨z, r⟩⟩⟩
      · exact .inl rfl
      · simp only [further]; split <;> exact .inl rfl
      · simp only [further]; repeat' split
        all_goals exact .inl rfl
      · simp only [further]
        split
        · rename_i hx
          split
          · split
            · right
              have := hm _ hx.1 hx.2
              simp only
              omega
            · exact .inl rfl
          · exact .inl rfl
        · exact .inl rfl
    unfold lead at h
    split at h
    · cases h
      rcases bs with _ | ⟨x, r⟩
      · exact .inl rfl
      · by_cases hx : 0x80 ≤ x.toNat ∧ x.toNat ≤ 0xBF
        · refine .inr (.inl ⟨x, r, rfl, by omega, by omega, hx.1, hx.2, ?_⟩)
          simp only [further, hx, and_self, if_true]
        · simp only [further, hx, if_false]; exact .inl trivial
    · split at h
      · cases h
        rcases two (by omega) (by omega) with q | ⟨x, y, r, q1, q2, q3, q4, q5, q6⟩
        · exact .inl q
        · exact .inr (.inr (.inl ⟨x, y, r, q1, by omega, by omega, by omega, by omega, by omega, q4, q5, q6⟩))
      · split at h
        · cases h
          rcases two (by omega) (by omega) with q | ⟨x, y, r, q1, q2, q3, q4, q5, q6⟩
          · exact .inl q
          · exact .inr (.inr (.inl ⟨x, y, r, q1, by omega, by omega, by omega, by omega, by omega, q4, q5, q6⟩))
        · split at h
          · cases h
            rcases two (by omega) (by omega) with q | ⟨x, y, r, q1, q2, q3, q4, q5, q6⟩
            · exact .inl q
            · exact .inr (.inr (.inl ⟨x, y, r, q1, by omega, by omega, by omega, by omega, by omega, q4, q5, q6⟩))
          · split at h
            · cases h
              exact (three (by omega) (fun x _ _ => by omega)).imp_right fun q => .inr (.inr q)
            · split at h
              · cases h
                exact (three (by omega) (fun x _ _ => by omega)).imp_right fun q => .inr (.inr q)
              · split at h
                · cases h
                  exact (three (by omega) (fun x _ _ => by omega)).imp_right fun q => .inr (.inr q)
                · cases h

theorem toNat_eq {b : UInt8} {n : Nat} (hn : n < 256) (h : b.toNat = n) : b = UInt8.ofNat n := by
  apply UInt8.toNat_inj.1
  rw [h]
  simp [Nat.mod_eq_of_lt hn]

theorem white_ascii (b : UInt8) (bs : Bytes) (hb : b.toNat < 0x80) : white (char b bs).1 = true ∧ wsLen (b :: bs) = 1 ∨ white (char b bs).1 = false ∧ wsLen (b :: bs) = 0 := by
  have hc : (char b bs).1 = b.toNat := by unfold char; rw [if_pos hb]
  have e : wsLen (b :: bs) = if (9 ≤ b ∧ b ≤ 13) ∨ b = 32 then 1 else 0 := by
    unfold wsLen
    split
    all_goals first | rfl | skip
    all_goals first | (rename_i h; cases h; exact absurd hb (by decide)) | skip
    · rename_i h
      injection h with h1 h2
      subst h1; subst h2
      rfl
    · rename_i h; cases h
  rw [hc, e]
  have hw : white b.toNat = true ↔ ((9 ≤ b ∧ b ≤ 13) ∨ b = 32) := by
    have h32 : b = 32 ↔ b.toNat = 32 := ⟨fun h => by rw [h]; rfl, fun h => toNat_eq (n := 32) (by decide) h⟩
    rw [h32, UInt8.le_iff_toNat_le, UInt8.le_iff_toNat_le]
    simp only [white, Bool.or_eq_true, Bool.and_eq_true, decide_eq_true_eq, beq_iff_eq]
    show _ ↔ (9 ≤ b.toNat ∧ b.toNat ≤ 13) ∨ _
    omega
  by_cases h : (9 ≤ b ∧ b ≤ 13) ∨ b = 32
  · rw [if_pos h]; exact .inl ⟨hw.2 h, rfl⟩
  · rw [if_neg h]; exact .inr ⟨by rw [← Bool.not_eq_true, hw]; exact h, rfl⟩

theorem char_E2 (x y : UInt8) (r : Bytes) (hx : 0x80 ≤ x.toNat ∧ x.toNat ≤ 0xBF) (hy : 0x80 ≤ y.toNat ∧ y.toNat ≤ 0xBF) :
    char 0xE2 (x :: y :: r) = ((2 * 64 + x.toNat % 64) * 64 + y.toNat % 64, 2) := by
  simp [char, lead, further, hx, hy]

/-- What `wsLen` recognises besides ASCII. -/
theorem wsLen_white (b : UInt8) (bs : Bytes) (hb : ¬ b.toNat < 0x80) :
    wsLen (b :: bs) = 0 ∨ white (char b bs).1 = true := by
  unfold wsLen
  split
  · rename_i x r h
    cases h
    split
    · rename_i h
      rcases h with rfl | rfl <;> exact .inr rfl
    · exact .inl rfl
  · rename_i x y r h
    cases h
    split
    · rename_i h
      obtain ⟨rfl, rfl⟩ := h
      exact .inr rfl
    · exact .inl rfl
  · rename_i x y r h
    cases h
    split
    · rename_i h
      obtain ⟨rfl, h⟩ := h
      rw [UInt8.le_iff_toNat_le, UInt8.le_iff_toNat_le] at h
      right
      rcases h with ⟨h1, h2⟩ | rfl | rfl | rfl
      · change 0x80 ≤ y.toNat at h1
        change y.toNat ≤ 0x8A at h2
        rw [char_E2 _ _ _ (by decide) (by omega)]
        simp only [white, Bool.or_eq_true, Bool.and_eq_true, decide_eq_true_eq, beq_iff_eq]
        change _ ∨ _
        simp only [UInt8.reduceToNat]
        omega
      all_goals rfl
    · split
      · rename_i h
        obtain ⟨rfl, rfl⟩ := h
        exact .inr rfl
      · exact .inl rfl
  · rename_i x y r h
    cases h
    split
    · rename_i h
      obtain ⟨rfl, rfl⟩ := h
      exact .inr rfl
    · exact .inl rfl
  · rename_i x h
    cases h
    left
    rw [if_neg]
    rw [UInt8.le_iff_toNat_le, UInt8.le_iff_toNat_le]
    rintro (⟨-, h⟩ | rfl)
    · change b.toNat ≤ 13 at h
      omega
    · exact hb (by decide)
  · rename_i h; cases h

theorem white_wsLen (b : UInt8) (bs : Bytes) (hb : ¬ b.toNat < 0x80) :
    (white (char b bs).1 = true ∧ wsLen (b :: bs) = (char b bs).2 + 1) ∨ (white (char b bs).1 = false ∧ wsLen (b :: bs) = 0) := by
  cases hw : white (char b bs).1 with
  | false =>
    rcases wsLen_white b bs hb with h | h
    · exact .inr ⟨rfl, h⟩
    · rw [hw] at h; cases h
  | true =>
    refine .inl ⟨rfl, ?_⟩
    rcases char_cases b bs hb with h | ⟨x, r, rfl, h1, h2, h3, h4, h⟩ | ⟨x, y, r, rfl, h1, h2, h0, h3, h4, h5, h6, h⟩ | h
    · rw [h] at hw; cases hw
    · rw [h] at hw ⊢
      simp only [white, Bool.or_eq_true, Bool.and_eq_true, decide_eq_true_eq, beq_iff_eq] at hw
      obtain ⟨k1, k2⟩ : b.toNat = 0xC2 ∧ (x.toNat = 0x85 ∨ x.toNat = 0xA0) := by omega
      obtain rfl := toNat_eq (by decide) k1
      rcases k2 with k2 | k2 <;> obtain rfl := toNat_eq (by decide) k2 <;> rfl
    · rw [h] at hw ⊢
      have e1 : b.toNat % 16 = b.toNat - 0xE0 := by omega
      have e2 : x.toNat % 64 = x.toNat - 0x80 := by omega
      have e3 : y.toNat % 64 = y.toNat - 0x80 := by omega
      rw [e1, e2, e3] at hw
      simp only [white, Bool.or_eq_true, Bool.and_eq_true, decide_eq_true_eq, beq_iff_eq, or_assoc] at hw
      clear h e1 e2 e3
      have k : (b.toNat = 0xE1 ∧ x.toNat = 0x9A ∧ y.toNat = 0x80) ∨ (b.toNat = 0xE3 ∧ x.toNat = 0x80 ∧ y.toNat = 0x80) ∨
          (b.toNat = 0xE2 ∧ x.toNat = 0x81 ∧ y.toNat = 0x9F) ∨ (b.toNat = 0xE2 ∧ x.toNat = 0x80 ∧ y.toNat ≤ 0x8A) ∨
          (b.toNat = 0xE2 ∧ x.toNat = 0x80 ∧ (y.toNat = 0xA8 ∨ y.toNat = 0xA9 ∨ y.toNat = 0xAF)) := by
        rcases hw with hw | hw | hw | hw | hw | hw | hw | hw | hw | hw | hw
        · exfalso; omega
        · exfalso; omega
        · exfalso; omega
        · exfalso; omega
        · exact .inl ⟨by omega, by omega, by omega⟩
        · exact .inr (.inr (.inr (.inl ⟨by omega, by omega, by omega⟩)))
        · exact .inr (.inr (.inr (.inr ⟨by omega, by omega, .inl (by omega)⟩)))
        · exact .inr (.inr (.inr (.inr ⟨by omega, by omega, .inr (.inl (by omega))⟩)))
        · exact .inr (.inr (.inr (.inr ⟨by omega, by omega, .inr (.inr (by omega))⟩)))
        · exact .inr (.inr (.inl ⟨by omega, by omega, by omega⟩))
        · exact .inr (.inl ⟨by omega, by omega, by omega⟩)
      rcases k with ⟨k1, k2, k3⟩ | ⟨k1, k2, k3⟩ | ⟨k1, k2, k3⟩ | ⟨k1, k2, k3⟩ | ⟨k1, k2, k3⟩
      · obtain rfl := toNat_eq (by decide) k1; obtain rfl := toNat_eq (by decide) k2; obtain rfl := toNat_eq (by decide) k3; rfl
      · obtain rfl := toNat_eq (by decide) k1; obtain rfl := toNat_eq (by decide) k2; obtain rfl := toNat_eq (by decide) k3; rfl
      · obtain rfl := toNat_eq (by decide) k1; obtain rfl := toNat_eq (by decide) k2; obtain rfl := toNat_eq (by decide) k3; rfl
      · obtain rfl := toNat_eq (by decide) k1; obtain rfl := toNat_eq (by decide) k2
        show (if (0x80 : UInt8) = 0x80 ∧ ((0x80 ≤ y ∧ y ≤ 0x8A) ∨ y = 0xA8 ∨ y = 0xA9 ∨ y = 0xAF) then 3 else _) = 3
        rw [if_pos]
        refine ⟨rfl, .inl ?_⟩
        rw [UInt8.le_iff_toNat_le, UInt8.le_iff_toNat_le]
        exact ⟨h5, k3⟩
      · obtain rfl := toNat_eq (by decide) k1; obtain rfl := toNat_eq (by decide) k2
        rcases k3 with k3 | k3 | k3 <;> obtain rfl := toNat_eq (by decide) k3 <;> rfl
    · simp only [white, Bool.or_eq_true, Bool.and_eq_true, decide_eq_true_eq, beq_iff_eq] at hw
      omega

/-! ### Words -/

/-- A word as bytes and as characters. -/
def SameWord (w : Bytes) (u : List Nat) : Prop :=
  (∀ b ∈ w, b.toNat < 0x80) ∧ u = w.map UInt8.toNat ∨ (∃ b ∈ w, 0x80 ≤ b.toNat) ∧ ∃ c ∈ u, 0x80 ≤ c

theorem SameWord.append {w w' : Bytes} {u u' : List Nat} (h : SameWord w u) (h' : SameWord w' u') : SameWord (w ++ w') (u ++ u') := by
  rcases h with ⟨h1, rfl⟩ | ⟨⟨b, hb, hb'⟩, c, hc, hc'⟩
  · rcases h' with ⟨k1, rfl⟩ | ⟨⟨b, hb, hb'⟩, c, hc, hc'⟩
    · refine .inl ⟨fun b hb => ?_, by simp⟩
      rcases List.mem_append.1 hb with hb | hb
      · exact h1 b hb
      · exact k1 b hb
    · exact .inr ⟨⟨b, by simp [hb], hb'⟩, c, by simp [hc], hc'⟩
  · exact .inr ⟨⟨b, by simp [hb], hb'⟩, c, by simp [hc], hc'⟩

theorem SameWord.nil_iff {w : Bytes} {u : List Nat} (h : SameWord w u) : w = [] ↔ u = [] := by
  rcases h with ⟨-, rfl⟩ | ⟨⟨b, hb, -⟩, c, hc, -⟩
  · simp
  · constructor
    · rintro rfl; cases hb
    · rintro rfl; cases hc

theorem SameWord.char (b : UInt8) (bs : Bytes) : SameWord (b :: bs.take (char b bs).2) [(Utf8.char b bs).1] := by
  by_cases hb : b.toNat < 0x80
  · have : Utf8.char b bs = (b.toNat, 0) := by unfold Utf8.char; rw [if_pos hb]
    rw [this]
    exact .inl ⟨by simpa using hb, by simp⟩
  · refine .inr ⟨⟨b, by simp, by omega⟩, _, List.mem_singleton.2 rfl, ?_⟩
    rcases char_cases b bs hb with h | ⟨x, r, -, h1, h2, h3, h4, h⟩ | ⟨x, y, r, -, h1, h2, h0, h3, h4, h5, h6, h⟩ | h
    · rw [h]; decide
    · rw [h]; simp only; omega
    · rw [h]
      have e1 : b.toNat % 16 = b.toNat - 0xE0 := by omega
      have e2 : x.toNat % 64 = x.toNat - 0x80 := by omega
      simp only [e1, e2]
      omega
    · omega

/-- Same text. -/
theorem SameWord.eq_iff {w : Bytes} {u : List Nat} (h : SameWord w u) {x : Bytes} (hx : ∀ b ∈ x, b.toNat < 0x80) : w = x ↔ u = x.map UInt8.toNat := by
  rcases h with ⟨-, rfl⟩ | ⟨⟨b, hb, hb'⟩, c, hc, hc'⟩
  · constructor
    · rintro rfl; rfl
    · intro h
      exact (List.map_inj_right fun a b h => UInt8.toNat_inj.1 h).1 h
  · constructor
    · rintro rfl; exact absurd (hx b hb) (by omega)
    · rintro rfl
      obtain ⟨d, hd, rfl⟩ := List.mem_map.1 hc
      exact absurd (hx d hd) (by omega)

theorem splitWs_skip (n : Nat) (cur bs : Bytes) : splitWs n cur bs = splitWs 0 cur (bs.drop n) := by
  induction n generalizing bs with
  | zero => rfl
  | succ n ih =>
    cases bs with
    | nil => unfold splitWs; rfl
    | cons b bs => rw [splitWs, ih]; rfl

theorem splitWs_rest (x : Bytes) (hx : ∀ b ∈ x, 0x80 ≤ b.toNat ∧ b.toNat ≤ 0xBF) (cur r : Bytes) :
    splitWs 0 cur (x ++ r) = splitWs 0 (cur ++ x) r := by
  induction x generalizing cur with
  | nil => simp
  | cons b x ih =>
    have hb := hx b (by simp)
    have hw : wsLen (b :: (x ++ r)) = 0 := by
      rcases white_wsLen b (x ++ r) (by omega) with ⟨h, -⟩ | ⟨-, h⟩
      · exfalso
        have hl : lead b.toNat = none := by
          unfold lead
          repeat' rw [if_neg (by omega)]
        have hc : (Utf8.char b (x ++ r)).1 = replacement := by
          unfold Utf8.char
          rw [if_neg (by omega), hl]
        rw [hc] at h
        cases h
      · exact h
    rw [List.cons_append, splitWs, hw]
    simp only
    rw [ih fun y hy => hx y (by simp [hy])]
    simp

open Spec.Dimacs (split)

theorem split_acc (u : List Nat) : ∃ w ws, split white u = w :: ws := by
  cases u with
  | nil => exact ⟨_, _, rfl⟩
  | cons c u =>
    unfold split
    split
    · exact ⟨_, _, rfl⟩
    · split <;> exact ⟨_, _, rfl⟩

/-- The words of a line, as bytes and as characters. -/
theorem splitWs_words (n : Nat) : ∀ (bs cur : Bytes) (u : List Nat), bs.length ≤ n → SameWord cur u → ∀ w ws, split white (decode bs) = w :: ws →
    List.Forall₂ SameWord (splitWs 0 cur bs) ((if u ++ w = [] then [] else [u ++ w]) ++ ws.filter (· ≠ [])) := by
  induction n with
  | zero =>
    intro bs cur u hn h w ws hs
    obtain rfl := List.length_eq_zero_iff.1 (Nat.le_zero.1 hn)
    rw [decode] at hs
    simp only [split, List.cons.injEq] at hs
    obtain ⟨rfl, rfl⟩ := hs
    unfold splitWs
    simp only [List.append_nil, h.nil_iff, List.filter_nil]
    split
    · exact .nil
    · exact .cons h .nil
  | succ n ih =>
    intro bs cur u hn h w ws hs
    cases bs with
    | nil =>
      rw [decode] at hs
      simp only [split, List.cons.injEq] at hs
      obtain ⟨rfl, rfl⟩ := hs
      unfold splitWs
      simp only [List.append_nil, h.nil_iff, List.filter_nil]
      split
      · exact .nil
      · exact .cons h .nil
    | cons b r =>
      have hlen : (r.drop (char b r).2).length ≤ n := by simp only [List.length_drop]; simp only [List.length_cons] at hn; omega
      have key : (white (char b r).1 = true ∧ wsLen (b :: r) = (char b r).2 + 1) ∨ (white (char b r).1 = false ∧ wsLen (b :: r) = 0) := by
        by_cases hb : b.toNat < 0x80
        · have : char b r = (b.toNat, 0) := by unfold char; rw [if_pos hb]
          have h2 : (char b r).2 = 0 := by rw [this]
          rw [h2]
          exact white_ascii b r hb
        · exact white_wsLen b r hb
      rw [decode] at hs
      unfold split at hs
      obtain ⟨w', ws', hs'⟩ := split_acc (decode (r.drop (char b r).2))
      rcases key with ⟨k1, k2⟩ | ⟨k1, k2⟩
      · rw [k1, if_pos rfl, hs'] at hs
        simp only [List.cons.injEq] at hs
        obtain ⟨rfl, rfl⟩ := hs
        rw [splitWs, k2]
        simp only
        rw [splitWs_skip]
        have := ih _ [] [] hlen (.inl ⟨by simp, rfl⟩) _ _ hs'
        simp only [List.append_nil, h.nil_iff]
        have e : List.filter (fun x => decide (x ≠ [])) (w' :: ws') = (if [] ++ w' = [] then [] else [[] ++ w']) ++ List.filter (fun x => decide (x ≠ [])) ws' := by
          by_cases hw : w' = [] <;> simp [hw]
        rw [e]
        split
        · simpa using this
        · exact .cons h (by simpa using this)
      · rw [k1] at hs
        simp only [Bool.false_eq_true, if_false, hs', List.cons.injEq] at hs
        obtain ⟨rfl, rfl⟩ := hs
        rw [splitWs, k2]
        simp only
        have := ih _ (cur ++ b :: r.take (char b r).2) (u ++ [(char b r).1]) hlen (h.append (SameWord.char b r)) _ _ hs'
        conv at this =>
          rw [show u ++ [(char b r).1] ++ w' = u ++ (char b r).1 :: w' by simp]
        rw [show splitWs 0 (cur ++ [b]) r = splitWs 0 (cur ++ b :: r.take (char b r).2) (r.drop (char b r).2) by
          conv => lhs; rw [← List.take_append_drop (char b r).2 r]
          rw [splitWs_rest _ (char_rest b r)]
          simp]
        exact this

end Varisat.Spec.Utf8

namespace Varisat.Spec.Dimacs
open Utf8

/-- White space among the bytes below 128. -/
def isSpace (b : UInt8) : Bool := (9 ≤ b && b ≤ 13) || b == 32

/-- `headerNumber?` for bytes. -/
def bytesNumber? (w : Bytes) : Option Nat :=
  let ds := if w.head? = some 43 then w.tail else w
  if ds ≠ [] ∧ ds.all isDigit ∧ digitsValue ds < 2 ^ 64 then some (digitsValue ds) else none

/-- `header?` for bytes. -/
def bytesHeader? (line : Bytes) : Option (Nat × Nat) :=
  if line.take 2 = [112, 32] then
    match splitWs 0 [] (line.drop 2) with
    | [cnf, v, c] =>
      if cnf = [99, 110, 102] then
        match bytesNumber? v, bytesNumber? c with
        | some v, some c => if v ≤ 2 ^ 28 then some (v, c) else none
        | _, _ => none
      else none
    | _ => none
  else none

theorem digits_map (ds : Bytes) (n : Nat) : (ds.map UInt8.toNat).foldl (fun n d => 10 * n + (d - 48)) n = ds.foldl (fun n d => 10 * n + (d.toNat - 48)) n := by
  induction ds generalizing n with
  | nil => rfl
  | cons d ds ih => simp only [List.map_cons, List.foldl_cons]; exact ih _

theorem number_same {w : Bytes} {u : List Nat} (h : SameWord w u) : headerNumber? u = bytesNumber? w := by
  unfold headerNumber? bytesNumber?
  rcases h with ⟨-, rfl⟩ | ⟨⟨b, hb, hb'⟩, c, hc, hc'⟩
  · have e : (if (w.map UInt8.toNat).head? = some 43 then (w.map UInt8.toNat).tail else w.map UInt8.toNat) =
        (if w.head? = some 43 then w.tail else w).map UInt8.toNat := by
      cases w with
      | nil => rfl
      | cons x w =>
        have : x.toNat = 43 ↔ x = 43 := ⟨fun h => toNat_eq (by decide) h, fun h => by rw [h]; rfl⟩
        simp only [List.map_cons, List.head?_cons, Option.some.injEq, List.tail_cons, this]
        split <;> rfl
    rw [e]
    generalize (if w.head? = some 43 then w.tail else w) = ds
    have hv : (ds.map UInt8.toNat).foldl (fun n d => 10 * n + (d - 48)) 0 = digitsValue ds := digits_map ds 0
    simp only [hv, ne_eq, List.map_eq_nil_iff, List.mem_map, forall_exists_index, and_imp, forall_apply_eq_imp_iff₂, List.all_eq_true,
      isDigit, decide_eq_true_eq, Bool.decide_and, Bool.and_eq_true]
  · rw [if_neg, if_neg]
    · rintro ⟨-, h, -⟩
      have hm : b ∈ (if w.head? = some 43 then w.tail else w) := by
        cases w with
        | nil => cases hb
        | cons x w =>
          simp only [List.head?_cons, Option.some.injEq, List.tail_cons]
          split
          · rename_i hx
            subst hx
            rcases List.mem_cons.1 hb with rfl | hb
            · exact absurd hb' (by decide)
            · exact hb
          · exact hb
      have := List.all_eq_true.1 h b hm
      simp only [isDigit, Bool.decide_and, Bool.and_eq_true, decide_eq_true_eq] at this
      omega
    · rintro ⟨-, h, -⟩
      have hm : c ∈ (if u.head? = some 43 then u.tail else u) := by
        cases u with
        | nil => cases hc
        | cons x u =>
          simp only [List.head?_cons, Option.some.injEq, List.tail_cons]
          split
          · rename_i hx
            subst hx
            rcases List.mem_cons.1 hc with rfl | hc
            · omega
            · exact hc
          · exact hc
      have := h c hm
      omega

theorem decode_ascii (b : UInt8) (bs : Bytes) (hb : b.toNat < 0x80) : decode (b :: bs) = b.toNat :: decode bs := by
  have : char b bs = (b.toNat, 0) := by unfold char; rw [if_pos hb]
  rw [decode, this]
  rfl

/-- The first character. -/
theorem decode_head (b : UInt8) (bs : Bytes) : ∃ c k, decode (b :: bs) = c :: decode (bs.drop k) ∧ (c < 0x80 → c = b.toNat ∧ k = 0) := by
  refine ⟨_, _, by rw [decode], fun hc => ?_⟩
  by_cases hb : b.toNat < 0x80
  · unfold char; rw [if_pos hb]; exact ⟨rfl, rfl⟩
  · exfalso
    rcases SameWord.char b bs with ⟨h, -⟩ | ⟨-, c, h, hc'⟩
    · exact hb (h b (by simp))
    · rw [List.mem_singleton.1 h] at hc'; omega

theorem header?_bytes (line : Bytes) : header? line = bytesHeader? line := by
  have ep : "p ".toList.map Char.toNat = [112, 32] := by decide
  have ec : "cnf".toList.map Char.toNat = [99, 110, 102] := by decide
  unfold header? bytesHeader?
  simp only [ep, ec]
  by_cases ht : line.take 2 = [112, 32]
  · obtain ⟨r, rfl⟩ : ∃ r, line = 112 :: 32 :: r := by
      rcases line with _ | ⟨a, _ | ⟨b, r⟩⟩
      · cases ht
      · cases ht
      · simp only [List.take_succ_cons, List.take_zero, List.cons.injEq, and_true] at ht
        exact ⟨r, by rw [ht.1, ht.2]⟩
    rw [if_pos ht, decode_ascii _ _ (by decide), decode_ascii _ _ (by decide), if_pos (by rfl)]
    simp only [List.drop_succ_cons, List.drop_zero]
    obtain ⟨w, ws, hs⟩ := split_acc (decode r)
    have hw := splitWs_words _ r [] [] (Nat.le_refl _) (.inl ⟨by simp, rfl⟩) w ws hs
    have e : List.filter (fun x => decide (x ≠ [])) (split white (decode r)) = (if [] ++ w = [] then [] else [[] ++ w]) ++ ws.filter (· ≠ []) := by
      rw [hs]
      by_cases hw : w = [] <;> simp [hw]
    rw [e]
    revert hw
    generalize (if [] ++ w = [] then [] else [[] ++ w]) ++ ws.filter (· ≠ []) = us
    generalize splitWs 0 [] r = bs
    intro hw
    rcases hw with _ | ⟨h1, _ | ⟨h2, _ | ⟨h3, _ | ⟨h4, h5⟩⟩⟩⟩
    · rfl
    · rfl
    · rfl
    · simp only [number_same h2, number_same h3, h1.eq_iff (x := [99, 110, 102]) (by decide)]
      rfl
    · rfl
  · rw [if_neg ht, if_neg]
    intro h
    apply ht
    rcases line with _ | ⟨a, l⟩
    · rw [decode] at h; cases h
    · obtain ⟨c, k, h1, h2⟩ := decode_head a l
      rw [h1, List.take_succ_cons] at h
      injection h with h3 h4
      obtain ⟨h5, rfl⟩ := h2 (by omega)
      rcases l with _ | ⟨b, l⟩
      · rw [List.drop_zero, decode] at h4; cases h4
      · obtain ⟨c', k', g1, g2⟩ := decode_head b l
        rw [List.drop_zero, g1, List.take_succ_cons] at h4
        injection h4 with g3 g4
        obtain ⟨g5, -⟩ := g2 (by omega)
        rw [toNat_eq (b := a) (n := 112) (by decide) (by omega), toNat_eq (b := b) (n := 32) (by decide) (by omega)]
        rfl

end Varisat.Spec.Dimacs
