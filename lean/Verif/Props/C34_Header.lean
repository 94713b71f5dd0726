import Verif.Model.Header
/-!
# C34: the packed header fields are independent
-/
namespace Varisat

namespace Header

theorem get_other {o1 o2 : Nat} {m1 m2 v : BitVec 32} (w : BitVec 32)
    (hv : v &&& m2 = v) (hd : (m1 <<< o1) &&& (m2 <<< o2) = 0) :
    (((w &&& ~~~ (m2 <<< o2)) ||| (v <<< o2)) >>> o1) &&& m1 = (w >>> o1) &&& m1 := by
  apply BitVec.eq_of_getLsbD_eq
  intro i hi
  have hv' : ∀ j, v.getLsbD j = true → m2.getLsbD j = true := by
    intro j hj
    have := congrArg (fun x => x.getLsbD j) hv
    simp only [BitVec.getLsbD_and, hj, Bool.true_and] at this
    exact this
  have hd' := congrArg (fun x => x.getLsbD (o1 + i)) hd
  simp only [BitVec.getLsbD_and, BitVec.getLsbD_shiftLeft, BitVec.ofNat_eq_ofNat,
    BitVec.getLsbD_zero, Nat.add_sub_cancel_left] at hd'
  simp only [BitVec.getLsbD_and, BitVec.getLsbD_or, BitVec.getLsbD_ushiftRight,
    BitVec.getLsbD_shiftLeft, BitVec.getLsbD_not]
  by_cases hj : o1 + i < 32
  · simp only [hj, decide_true, Bool.true_and] at hd' ⊢
    cases hm : m1.getLsbD i
    · simp
    · have h1 : ¬ o1 + i < o1 := by omega
      simp only [hm, h1, decide_false, Bool.not_false, Bool.true_and] at hd' ⊢
      by_cases h2 : o1 + i < o2
      · simp [h2]
      · simp only [h2, decide_false, Bool.not_false, Bool.true_and] at hd' ⊢
        have : v.getLsbD (o1 + i - o2) = false := by
          cases hc : v.getLsbD (o1 + i - o2)
          · rfl
          · rw [hv' _ hc] at hd'; simp at hd'
        simp [hd', this]
  · simp only [hj, decide_false, Bool.false_and, Bool.or_false]
    rw [BitVec.getLsbD_of_ge w (o1 + i) (by omega)]
    simp

theorem get_same {o : Nat} {m v : BitVec 32} (w : BitVec 32) (hv : v &&& m = v)
    (hm : (m <<< o) >>> o = m) :
    (((w &&& ~~~ (m <<< o)) ||| (v <<< o)) >>> o) &&& m = v := by
  apply BitVec.eq_of_getLsbD_eq
  intro i hi
  have hv' := congrArg (fun x => x.getLsbD i) hv
  have hm' := congrArg (fun x => x.getLsbD i) hm
  simp only [BitVec.getLsbD_and, BitVec.getLsbD_shiftLeft, BitVec.getLsbD_ushiftRight,
    Nat.add_sub_cancel_left] at hv' hm'
  simp only [BitVec.getLsbD_and, BitVec.getLsbD_or, BitVec.getLsbD_ushiftRight,
    BitVec.getLsbD_shiftLeft, BitVec.getLsbD_not, Nat.add_sub_cancel_left]
  have h1 : ¬ o + i < o := by omega
  simp only [h1, decide_false, Bool.not_false, Bool.and_true] at hm' ⊢
  cases hb : m.getLsbD i
  · rw [hb] at hv'
    simp only [Bool.and_false] at hv'
    simp [← hv', hb]
  · rw [hb] at hm'
    simp only [Bool.and_true] at hm'
    simp [hm', hb]

end Header

/-- All that is stored in a clause header. -/
structure HeaderFields where
  len : Nat
  deleted : Bool
  tier : Tier
  mark : Bool
  glue : Nat
  active : Bool
  activity : BitVec 32
deriving DecidableEq, Repr

def Header.fields (h : Header) : HeaderFields :=
  ⟨h.len, h.deleted, h.tier, h.mark, h.glue, h.active, h.activity⟩

namespace C34
open Header

theorem ofBool_mask (b : Bool) : ofBool b &&& 1 = ofBool b := by cases b <;> decide

theorem glue_mask (g : Nat) :
    BitVec.ofNat 32 (min g glueMask.toNat) &&& glueMask = BitVec.ofNat 32 (min g glueMask.toNat) := by
  have e : glueMask = BitVec.ofNat 32 (2 ^ 6 - 1) := by decide
  have e' : glueMask.toNat = 2 ^ 6 - 1 := by decide
  apply BitVec.eq_of_toNat_eq
  rw [BitVec.toNat_and, e', Nat.and_two_pow_sub_one_eq_mod, BitVec.toNat_ofNat]
  have : min g (2 ^ 6 - 1) < 2 ^ 6 := by omega
  omega

/-- **C34**, length: any length a clause can have is stored exactly; nothing else changes. -/
theorem set_len (h : Header) (n : Nat) (hn : n < 2 ^ 32) :
    (h.setLen n).fields = { h.fields with len := n } := by
  simp only [Header.fields, HeaderFields.mk.injEq]
  refine ⟨?_, rfl, rfl, rfl, rfl, rfl, rfl⟩
  simp only [Header.len, setLen, put, if_true, BitVec.toNat_ofNat]
  omega

example : ((⟨fun _ => 0xdeadbeef⟩ : Header).setLen 12345).fields =
    { (⟨fun _ => 0xdeadbeef⟩ : Header).fields with len := 12345 } := set_len _ _ (by decide)

/-- Fields of the flag word after it was replaced. -/
theorem fields_put (h : Header) (w : BitVec 32) : (h.put 1 w).fields =
    { h.fields with
      deleted := (w >>> 2) &&& 1 != 0
      tier := Tier.fromIndex ((w >>> 0) &&& 3)
      mark := (w >>> 3) &&& 1 != 0
      glue := ((w >>> 4) &&& glueMask).toNat
      active := (w >>> 10) &&& 1 != 0 } := rfl

theorem fields_eta (h : Header) : h.fields =
    { h.fields with
      deleted := (h.data 1 >>> 2) &&& 1 != 0
      tier := Tier.fromIndex ((h.data 1 >>> 0) &&& 3)
      mark := (h.data 1 >>> 3) &&& 1 != 0
      glue := ((h.data 1 >>> 4) &&& glueMask).toNat
      active := (h.data 1 >>> 10) &&& 1 != 0 } := rfl

theorem bool_back (b : Bool) : (ofBool b != 0) = b := by cases b <;> decide

/-- **C34**, deleted flag. -/
theorem set_deleted (h : Header) (b : Bool) :
    (h.setDeleted b).fields = { h.fields with deleted := b } := by
  have hb := ofBool_mask b
  show (h.put 1 _).fields = _
  rw [fields_put, fields_eta h]
  simp only [deletedWord, deletedOffset]
  rw [get_same _ hb (by decide), get_other _ hb (by decide), get_other _ hb (by decide),
    get_other _ hb (by decide), get_other _ hb (by decide), bool_back]

/-- **C34**, tier. -/
theorem set_tier (h : Header) (t : Tier) :
    (h.setTier t).fields = { h.fields with tier := t } := by
  have ht : t.toIdx &&& tierMask = t.toIdx := by cases t <;> decide
  have hb : Tier.fromIndex t.toIdx = t := by cases t <;> decide
  have e : tierMask = 3 := rfl
  rw [e] at ht
  show (h.put 1 _).fields = _
  rw [fields_put, fields_eta h]
  simp only [tierWord, tierOffset, e]
  rw [get_other _ ht (by decide), get_same _ ht (by decide), get_other _ ht (by decide),
    get_other _ ht (by decide), get_other _ ht (by decide), hb]

/-- **C34**, mark. -/
theorem set_mark (h : Header) (b : Bool) :
    (h.setMark b).fields = { h.fields with mark := b } := by
  have hb := ofBool_mask b
  show (h.put 1 _).fields = _
  rw [fields_put, fields_eta h]
  simp only [markWord, markOffset]
  rw [get_other _ hb (by decide), get_other _ hb (by decide), get_same _ hb (by decide),
    get_other _ hb (by decide), get_other _ hb (by decide), bool_back]

/-- **C34**, active flag. -/
theorem set_active (h : Header) (b : Bool) :
    (h.setActive b).fields = { h.fields with active := b } := by
  have hb := ofBool_mask b
  show (h.put 1 _).fields = _
  rw [fields_put, fields_eta h]
  simp only [activeWord, activeOffset]
  rw [get_other _ hb (by decide), get_other _ hb (by decide), get_other _ hb (by decide),
    get_other _ hb (by decide), get_same _ hb (by decide), bool_back]

/-- **C34**, glue: saturates at 63. -/
theorem set_glue (h : Header) (g : Nat) :
    (h.setGlue g).fields = { h.fields with glue := min g 63 } := by
  have hg := glue_mask g
  show (h.put 1 _).fields = _
  rw [fields_put, fields_eta h]
  simp only [glueWord, glueOffset]
  rw [get_other _ hg (by decide), get_other _ hg (by decide), get_other _ hg (by decide),
    get_same _ hg (by decide), get_other _ hg (by decide)]
  have e : (BitVec.ofNat 32 (min g glueMask.toNat)).toNat = min g 63 := by
    have : glueMask.toNat = 63 := by decide
    rw [this, BitVec.toNat_ofNat]; omega
  rw [e]

/-- **C34**, activity bits. -/
theorem set_activity (h : Header) (a : BitVec 32) :
    (h.setActivity a).fields = { h.fields with activity := a } := rfl

/-- A clause counts as redundant exactly if its tier is not `Irred`; the default header is that of
an irredundant, unmarked, not deleted clause. -/
theorem redundant_iff (h : Header) : h.redundant = true ↔ h.fields.tier ≠ .irred := by
  simp [redundant, Header.fields]

/-- A header with all bits set, then every field changed (test). -/
example : ((((((⟨fun _ => BitVec.allOnes 32⟩ : Header).setGlue 17).setTier .mid).setDeleted
    false).setActive false).setMark false).fields = ⟨2 ^ 32 - 1, false, .mid, false, 17, false,
    BitVec.allOnes 32⟩ := by
  rw [set_mark, set_active, set_deleted, set_tier, set_glue]
  decide

end C34
end Varisat
