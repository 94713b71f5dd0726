import Verif.Model.Lit
/-!
# Lemmas about literals and satisfaction
-/
namespace Varisat
namespace Lit

@[simp] theorem var_mk' (i : Nat) (p : Bool) : (mk' i p).var = i := by
  unfold mk' var; cases p <;> simp <;> omega
@[simp] theorem isNeg_mk' (i : Nat) (p : Bool) : (mk' i p).isNeg = !p := by
  unfold mk' isNeg; cases p <;> simp <;> omega

theorem ext_var_neg {l m : Lit} (h1 : l.var = m.var) (h2 : l.isNeg = m.isNeg) : l = m := by
  cases l with | mk a => cases m with | mk b =>
  simp only [var, isNeg, Lit.mk.injEq] at *
  have : (a % 2 == 1) = (b % 2 == 1) := h2
  by_cases ha : a % 2 = 1 <;> by_cases hb : b % 2 = 1 <;> first | omega | (exfalso; simp [ha, hb] at this)

theorem mk'_var_neg (l : Lit) : mk' l.var (!l.isNeg) = l :=
  ext_var_neg (by simp) (by simp)

@[simp] theorem var_neg (l : Lit) : l.neg.var = l.var := by
  unfold neg var; simp only; split <;> omega
@[simp] theorem isNeg_neg (l : Lit) : l.neg.isNeg = !l.isNeg := by
  unfold neg isNeg; simp only; split <;> rename_i h
  · have : (l.code + 1) % 2 = 1 := by omega
    simp [this, h]
  · have : (l.code - 1) % 2 = 0 := by omega
    have h' : l.code % 2 = 1 := by omega
    simp [this, h']
@[simp] theorem neg_neg (l : Lit) : l.neg.neg = l := ext_var_neg (by simp) (by simp)
theorem neg_ne (l : Lit) : l.neg ≠ l := by
  intro h; have := congrArg isNeg h; simp at this
theorem ne_neg (l : Lit) : l ≠ l.neg := fun h => neg_ne l h.symm
theorem neg_inj {l m : Lit} (h : l.neg = m.neg) : l = m := by
  have := congrArg neg h; simpa using this
@[simp] theorem neg_inj_iff {l m : Lit} : l.neg = m.neg ↔ l = m :=
  ⟨neg_inj, fun h => by rw [h]⟩
theorem neg_eq_iff {l m : Lit} : l.neg = m ↔ l = m.neg :=
  ⟨fun h => by rw [← h, neg_neg], fun h => by rw [h, neg_neg]⟩

theorem eq_or_eq_neg {l m : Lit} (h : l.var = m.var) : l = m ∨ l = m.neg := by
  by_cases hn : l.isNeg = m.isNeg
  · exact .inl (ext_var_neg h hn)
  · refine .inr (ext_var_neg (by simpa using h) ?_)
    rw [isNeg_neg]; cases hl : l.isNeg <;> cases hm : m.isNeg <;> simp_all

@[simp] theorem holds_neg (a : Asg) (l : Lit) : l.neg.holds a ↔ ¬ l.holds a := by
  unfold holds; rw [var_neg, isNeg_neg]; cases a l.var <;> cases l.isNeg <;> simp

instance (a : Asg) (l : Lit) : Decidable (l.holds a) := by unfold holds; infer_instance

theorem holds_or_neg (a : Asg) (l : Lit) : l.holds a ∨ l.neg.holds a := by
  rw [holds_neg]; exact Decidable.em _

end Lit

theorem clauseSat_append {a : Asg} {c d : List Lit} :
    clauseSat a (c ++ d) ↔ clauseSat a c ∨ clauseSat a d := by
  simp only [clauseSat, List.mem_append]; grind
theorem clauseSat_cons {a : Asg} {l : Lit} {d : List Lit} :
    clauseSat a (l :: d) ↔ l.holds a ∨ clauseSat a d := by
  simp [clauseSat]
@[simp] theorem clauseSat_nil {a : Asg} : ¬ clauseSat a [] := by simp [clauseSat]
@[simp] theorem clauseSat_singleton {a : Asg} {l : Lit} : clauseSat a [l] ↔ l.holds a := by
  simp [clauseSat]
theorem clauseSat_mono {a : Asg} {c d : List Lit} (h : ∀ l ∈ c, l ∈ d) :
    clauseSat a c → clauseSat a d := fun ⟨l, hl, hh⟩ => ⟨l, h l hl, hh⟩
theorem clauseSat_congr {a : Asg} {c d : List Lit} (h : ∀ l, l ∈ c ↔ l ∈ d) :
    clauseSat a c ↔ clauseSat a d :=
  ⟨clauseSat_mono fun l hl => (h l).1 hl, clauseSat_mono fun l hl => (h l).2 hl⟩
theorem cnfSat_append {a : Asg} {f g : List (List Lit)} :
    cnfSat a (f ++ g) ↔ cnfSat a f ∧ cnfSat a g := by
  simp only [cnfSat, List.mem_append]; grind
theorem cnfSat_cons {a : Asg} {c : List Lit} {g : List (List Lit)} :
    cnfSat a (c :: g) ↔ clauseSat a c ∧ cnfSat a g := by
  simp [cnfSat]
@[simp] theorem cnfSat_nil {a : Asg} : cnfSat a [] := by simp [cnfSat]

end Varisat
