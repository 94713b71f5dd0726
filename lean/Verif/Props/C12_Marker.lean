import Verif.Props.C13_CheckerSound
import Verif.Props.C09_Vli
/-!
# C12: an accepted proof contains the end marker
-/
namespace Varisat
open Checker Fmt

/-- The ten bytes of an end marker: the 64-bit constant of the format after nine zero bits and a
one bit, in little-endian order. The reader ignores the six highest bits. -/
def EndMarker (m : Bytes) : Prop :=
  m.length = 10 ∧ leValue m / 2 ^ 10 % 2 ^ 64 = 0x9ac3391f4294c211

theorem bind_never {α β : Type} {p : P α} {f : α → P β} {bs : Bytes} {r : β × Bytes}
    (h : ∀ a bs, f a bs ≠ .ok r) : P.bind p f bs ≠ .ok r := by
  unfold P.bind
  cases p bs with
  | error e => simp
  | ok a => exact h _ _

theorem ite_end {α : Type} {c : Prop} [Decidable c] {x y r : α} (h : (if c then x else y) = r) :
    (c ∧ x = r) ∨ (¬ c ∧ y = r) := by
  split at h
  · exact .inl ⟨by assumption, h⟩
  · exact .inr ⟨by assumption, h⟩

theorem parseStep_end {fill : Nat → Nat} {bs rest : Bytes}
    (h : parseStep fill bs = .ok (.end_, rest)) : ∃ m, bs = m ++ rest ∧ EndMarker m := by
  unfold parseStep at h
  have h : P.bind (rd fill) (parseBody fill) bs = .ok (.end_, rest) := h
  unfold P.bind at h
  cases hr : rd fill bs with
  | error e => rw [hr] at h; simp at h
  | ok r =>
    obtain ⟨code, bs'⟩ := r
    rw [hr] at h
    simp only at h
    have key : code = codeEnd ∧ bs' = rest := by
      unfold parseBody at h
      simp only [ite_apply] at h
      iterate 14
        refine (ite_end h).elim (fun h => absurd h.2 ?_) (fun h' => ?_)
        · repeat (refine bind_never ?_; intro _ _)
          simp [P.pure]
        replace h := h'.2
        clear h'
      rcases ite_end h with h | h
      · exact ⟨h.1, by simpa [P.pure] using h.2⟩
      · simp [P.fail] at h
    obtain ⟨rfl, rfl⟩ := key
    rw [rd_ok] at hr
    unfold Vli.readSpec at hr
    simp only at hr
    split at hr
    · simp at hr
    · rename_i hl
      simp only [Option.some.injEq, Prod.mk.injEq] at hr
      obtain ⟨hv, hd⟩ := hr
      have htz := Vli.tz9_le (Vli.leNat (bs.take 2))
      generalize hn : Vli.tz9 (Vli.leNat (bs.take 2)) + 1 = n at hl hv hd
      have h10 : n = 10 := by
        have hlt := Vli.leNat_lt (bs.take n)
        have hlen : (bs.take n).length = n := by rw [List.length_take]; omega
        rw [hlen] at hlt
        by_contra hne
        have hn9 : n ≤ 9 := by omega
        have : Vli.leNat (bs.take n) / 2 ^ n < 2 ^ (7 * n) := by
          rw [Nat.div_lt_iff_lt_mul (Nat.two_pow_pos n), ← Nat.pow_add]
          rw [Vli.pow256] at hlt
          exact Nat.lt_of_lt_of_le hlt (Nat.pow_le_pow_right (by decide) (by omega))
        have h63 : (2 : Nat) ^ (7 * n) ≤ 2 ^ 63 := Nat.pow_le_pow_right (by decide) (by omega)
        have := Nat.mod_le (Vli.leNat (bs.take n) / 2 ^ n) (2 ^ 64)
        rw [hv] at this
        have e : codeEnd > 2 ^ 63 := by decide
        omega
      subst h10
      refine ⟨bs.take 10, by rw [← hd, List.take_append_drop], by rw [List.length_take]; omega, ?_⟩
      rw [leValue_eq, hv]
      rfl

/-- **C12**: whatever bytes a fresh checker accepts, they contain a complete end marker. -/
theorem C12.marker_present (env : Env) (fill : Nat → Nat) (s s' : St) (hs : s.ended = false)
    (bs : Bytes) (h : checkProof env fill bs s = .ok () s') :
    ∃ pre m rest, bs = pre ++ m ++ rest ∧ EndMarker m := by
  obtain ⟨sts, rest, s1, h1, -, -, -⟩ := checkProof_ok hs h
  clear h
  induction sts generalizing bs with
  | nil =>
    simp only [List.length_nil, List.nil_append, readSteps] at h1
    cases hp : parseStep fill bs with
    | error e => rw [hp] at h1; simp at h1
    | ok r =>
      obtain ⟨st, rest'⟩ := r
      rw [hp] at h1
      simp only [Except.ok.injEq, Prod.mk.injEq, List.cons.injEq, and_true] at h1
      obtain ⟨rfl, rfl⟩ := h1
      obtain ⟨m, rfl, hm⟩ := parseStep_end hp
      exact ⟨[], m, rest', rfl, hm⟩
  | cons st sts ih =>
    simp only [List.length_cons, List.cons_append] at h1
    rw [readSteps] at h1
    cases hp : parseStep fill bs with
    | error e => rw [hp] at h1; simp at h1
    | ok r =>
      obtain ⟨st', rest'⟩ := r
      rw [hp] at h1
      simp only at h1
      cases hq : readSteps fill (sts.length + 1) rest' with
      | error e => rw [hq] at h1; simp at h1
      | ok r =>
        obtain ⟨ss, rest''⟩ := r
        rw [hq] at h1
        simp only [Except.ok.injEq, Prod.mk.injEq, List.cons.injEq] at h1
        obtain ⟨⟨rfl, rfl⟩, rfl⟩ := h1
        obtain ⟨pre, m, r2, he, hm⟩ := ih rest' hq
        obtain ⟨p, hp⟩ := (good_parseStep fill).suffix _ _ _ hp
        exact ⟨p ++ pre, m, r2, by rw [hp, he]; simp, hm⟩

-- A concrete marker (test).
example : EndMarker (writeStep .end_) := by unfold EndMarker; decide +kernel

end Varisat
