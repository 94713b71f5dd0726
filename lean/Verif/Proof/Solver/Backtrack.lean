import Verif.Proof.Solver.Clauses
/-!
# Backtracking
-/
namespace Varisat.Solver
namespace Pt

theorem foldl_unassign (ls : List Lit) (p : Pt) :
    (ls.foldl unassign p).trail = p.trail ∧ (ls.foldl unassign p).qhead = p.qhead ∧
    (ls.foldl unassign p).decisions = p.decisions ∧ (ls.foldl unassign p).node = p.node ∧
    (ls.foldl unassign p).unitsRemoved = p.unitsRemoved ∧
    ∀ v, (ls.foldl unassign p).value v = if ∃ l ∈ ls, l.var = v then none else p.value v := by
  induction ls generalizing p with
  | nil => simp
  | cons x xs ih =>
    obtain ⟨h1, h2, h3, h4, h5, h6⟩ := ih (p.unassign x)
    refine ⟨h1, h2, h3, h4, h5, fun v => ?_⟩
    rw [List.foldl_cons, h6]
    by_cases hv : ∃ l ∈ xs, l.var = v
    · obtain ⟨l, hl, hv'⟩ := hv
      rw [if_pos ⟨l, hl, hv'⟩, if_pos ⟨l, by simp [hl], hv'⟩]
    · rw [if_neg hv]
      by_cases hx : x.var = v
      · rw [if_pos ⟨x, by simp, hx⟩]
        simp [unassign, hx]
      · rw [if_neg]
        · simp only [unassign]; rw [put_ne _ _ (Ne.symm hx)]
        · rintro ⟨l, hl, hlv⟩
          rcases List.mem_cons.1 hl with rfl | hl
          · exact hx hlv
          · exact hv ⟨l, hl, hlv⟩

section
variable {p : Pt} {level n : Nat}

theorem backtrack_none (h : p.curLevel ≤ level) : p.backtrack level = (p, []) := by
  unfold backtrack
  rw [List.getElem?_eq_none_iff.2 h]

/-- What backtracking does to each field. -/
theorem backtrack_fields (h : p.decisions[level]? = some n) :
    (p.backtrack level).1.trail = p.trail.take n ∧ (p.backtrack level).1.qhead = n ∧
    (p.backtrack level).1.decisions = p.decisions.take level ∧
    (p.backtrack level).1.node = p.node ∧
    (p.backtrack level).1.unitsRemoved = p.unitsRemoved ∧
    (∀ v, (p.backtrack level).1.value v = if ∃ l ∈ p.trail.drop n, l.var = v then none else p.value v) ∧
    (p.backtrack level).2 = p.trail.drop n := by
  unfold backtrack
  rw [h]
  have := foldl_unassign (p.trail.drop n) { p with qhead := n, decisions := p.decisions.take level }
  obtain ⟨h1, h2, h3, h4, h5, h6⟩ := this
  simp only
  refine ⟨?_, h2, h3, h4, h5, h6, trivial⟩
  rw [h1]

theorem backtrack_at (h : p.decisions[level]? = some n) {k : Nat} {l : Lit} :
    (p.backtrack level).1.At k l ↔ p.At k l ∧ k < n := by
  unfold At
  rw [(backtrack_fields h).1, List.getElem?_take]
  split
  · rename_i hk; simp [hk]
  · rename_i hk; simp [hk]

theorem Ok.not_dropped (hp : p.Ok) {k : Nat} {l : Lit} (hk : p.At k l) (hn : k < n) :
    ¬ ∃ m ∈ p.trail.drop n, m.var = l.var := by
  rintro ⟨m, hm, hv⟩
  obtain ⟨j, hj⟩ := List.mem_iff_getElem?.1 hm
  rw [List.getElem?_drop] at hj
  have := hp.uniq hk (k := n + j) (m := m) hj hv.symm
  omega

theorem Ok.backtrack (hp : p.Ok) (h : p.decisions[level]? = some n) : (p.backtrack level).1.Ok := by
  obtain ⟨h1, h2, h3, h4, h5, h6, _⟩ := backtrack_fields h
  have hmem : n ∈ p.decisions := List.mem_of_getElem? h
  constructor
  · intro l hl
    rw [h1] at hl
    obtain ⟨k, hk⟩ := List.mem_iff_getElem?.1 hl
    rw [List.getElem?_take] at hk
    split at hk
    · rename_i hkn
      have hk' : p.At k l := hk
      rw [h6, if_neg (hp.not_dropped hk' hkn)]
      exact hp.val l hk'.mem
    · simp at hk
  · rw [h1]
    exact ((List.take_sublist n p.trail).map _).nodup hp.nodup
  · intro k l hk
    rw [backtrack_at h] at hk
    rw [h4]; exact hp.depth k l hk.1
  · intro k l hk
    rw [backtrack_at h] at hk
    rw [Pt.level, h4, h3, lvl_take hp.sorted h hk.2]
    exact hp.level k l hk.1
  · intro v hv
    rw [h6] at hv
    split at hv
    · exact absurd rfl hv
    · rename_i hnd
      rw [h4, h1]
      rcases hp.off v hv with ⟨l, hl, hlv⟩ | h7
      · left
        refine ⟨l, ?_, hlv⟩
        rw [← List.take_append_drop n p.trail, List.mem_append] at hl
        rcases hl with hl | hl
        · exact hl
        · exact absurd ⟨l, hl, hlv⟩ hnd
      · exact .inr h7
  · rw [h3]; exact hp.sorted.sublist (List.take_sublist _ _)
  · intro d hd
    rw [h3] at hd
    obtain ⟨i, hi⟩ := List.mem_iff_getElem?.1 hd
    rw [List.getElem?_take] at hi
    split at hi
    · rename_i hil
      have : d < n := by
        obtain ⟨a, rfl⟩ := List.getElem?_eq_some_iff.1 hi
        obtain ⟨b, rfl⟩ := List.getElem?_eq_some_iff.1 h
        exact List.pairwise_iff_getElem.1 hp.sorted _ _ a b hil
      have h8 := hp.dlt n hmem
      rw [h1, List.length_take]; omega
    · simp at hi
  · have := hp.dlt n hmem
    rw [h1, h2, List.length_take]; omega
  · intro d hd
    rw [h3] at hd
    rw [h2]
    obtain ⟨i, hi⟩ := List.mem_iff_getElem?.1 hd
    rw [List.getElem?_take] at hi
    split at hi
    · rename_i hil
      obtain ⟨a, rfl⟩ := List.getElem?_eq_some_iff.1 hi
      obtain ⟨b, rfl⟩ := List.getElem?_eq_some_iff.1 h
      exact Nat.le_of_lt (List.pairwise_iff_getElem.1 hp.sorted _ _ a b hil)
    · simp at hi

theorem Att.backtrack (h : p.decisions[level]? = some n) {v : Nat} (ha : p.Att v) :
    (p.backtrack level).1.Att v := by
  obtain ⟨h1, h2, h3, h4, h5, h6, _⟩ := backtrack_fields h
  intro hv
  rw [h6] at hv
  split at hv
  · exact absurd rfl hv
  · rename_i hnd
    obtain ⟨l, hl, hlv⟩ := ha hv
    refine ⟨l, ?_, hlv⟩
    rw [h1]
    rw [← List.take_append_drop n p.trail, List.mem_append] at hl
    rcases hl with hl | hl
    · exact hl
    · exact absurd ⟨l, hl, hlv⟩ hnd

theorem backtrack_isTrue (h : p.decisions[level]? = some n) {l : Lit}
    (ht : (p.backtrack level).1.isTrue l = true) : p.isTrue l = true := by
  rw [isTrue_iff, (backtrack_fields h).2.2.2.2.2.1] at ht
  split at ht
  · simp at ht
  · exact isTrue_iff.2 ht

theorem backtrack_done (hp : p.Ok) (h : p.decisions[level]? = some n) {l : Lit}
    (hd : (p.backtrack level).1.Done l) : p.Done l ∧ p.level l.var ≤ level := by
  obtain ⟨k, hk, hat⟩ := hd
  rw [(backtrack_fields h).2.1] at hk
  rw [backtrack_at h] at hat
  refine ⟨⟨k, ?_, hat.1⟩, ?_⟩
  · have := hp.dq n (List.mem_of_getElem? h); omega
  · rw [hp.level k l hat.1, lvl_le_iff hp.sorted h]; exact hk

/-- A literal true since level `level` or before is kept. -/
theorem backtrack_keep (hp : p.Ok) (h : p.decisions[level]? = some n) {l : Lit} (ha : p.Att l.var)
    (ht : p.isTrue l = true) (hl : p.level l.var ≤ level) : (p.backtrack level).1.isTrue l = true := by
  obtain ⟨k, hk⟩ := hp.at_of_true ha ht
  rw [hp.level k l hk, lvl_le_iff hp.sorted h] at hl
  exact (hp.backtrack h).at_true ((backtrack_at h).2 ⟨hk, hl⟩)

theorem backtrack_level (h : p.decisions[level]? = some n) (v : Nat) :
    (p.backtrack level).1.level v = p.level v := by
  unfold Pt.level; rw [(backtrack_fields h).2.2.2.1]

theorem backtrack_reason (h : p.decisions[level]? = some n) (v : Nat) :
    (p.backtrack level).1.reason v = p.reason v := by
  unfold Pt.reason; rw [(backtrack_fields h).2.2.2.1]

theorem backtrack_curLevel (h : p.decisions[level]? = some n) : (p.backtrack level).1.curLevel = level := by
  unfold Pt.curLevel; rw [(backtrack_fields h).2.2.1, List.length_take]
  have := (List.getElem?_eq_some_iff.1 h).1; omega

/-- A literal of a later level becomes unassigned. -/
theorem backtrack_unassigned (hp : p.Ok) (h : p.decisions[level]? = some n) {l : Lit} {k : Nat}
    (hk : p.At k l) (hl : level < p.level l.var) : (p.backtrack level).1.value l.var = none := by
  rw [(backtrack_fields h).2.2.2.2.2.1, if_pos]
  rw [hp.level k l hk] at hl
  have h1 : ¬ lvl p.decisions k ≤ level := by omega
  rw [lvl_le_iff hp.sorted h] at h1
  refine ⟨l, List.mem_iff_getElem?.2 ⟨k - n, ?_⟩, rfl⟩
  rw [List.getElem?_drop, Nat.add_sub_cancel' (by omega)]
  exact hk

theorem backtrack_root (hp : p.Ok) (h : p.decisions[level]? = some n) {l : Lit} :
    (p.backtrack level).1.Root l ↔ p.Root l := by
  obtain ⟨h1, h2, h3, h4, h5, h6, _⟩ := backtrack_fields h
  have hmem : n ∈ p.decisions := List.mem_of_getElem? h
  constructor
  · rintro ⟨ht, hr⟩
    refine ⟨backtrack_isTrue h ht, ?_⟩
    rcases hr with ⟨k, hk, hl⟩ | hr
    · rw [backtrack_at h] at hk
      rw [h3, lvl_take hp.sorted h hk.2] at hl
      exact .inl ⟨k, hk.1, hl⟩
    · rw [h4] at hr; exact .inr hr
  · rintro ⟨ht, hr⟩
    rcases hr with ⟨k, hk, hl⟩ | hr
    · have hkn : k < n := by
        rw [← lvl_le_iff hp.sorted h]; omega
      have hat := (backtrack_at h).2 ⟨hk, hkn⟩
      refine ⟨(hp.backtrack h).at_true hat, .inl ⟨k, hat, ?_⟩⟩
      rw [h3, lvl_take hp.sorted h hkn]; exact hl
    · refine ⟨?_, .inr (by rw [h4]; exact hr)⟩
      rw [isTrue_iff, h6, if_neg]
      · exact isTrue_iff.1 ht
      · rintro ⟨m, hm, hv⟩
        obtain ⟨k, hk⟩ := At.of_mem (List.mem_of_mem_drop hm)
        have := hp.depth k m hk
        rw [hv, hr] at this
        simp at this

end
end Pt

section
variable {pres : Nat → Prop} {C : Cl} {p : Pt} {level n : Nat}

theorem CInv.backtrack (hc : CInv pres C p) (h : p.decisions[level]? = some n) :
    CInv pres C (p.backtrack level).1 := by
  have hf := Pt.backtrack_fields h
  constructor
  · exact hc.tr.backtrack h
  · exact hc.len
  · exact hc.nodup
  · exact fun c hl l hm => ⟨(hc.vars c hl l hm).1, (hc.vars c hl l hm).2.backtrack h⟩
  · exact hc.binSym
  · exact hc.binNe
  · exact fun l m hm => ⟨(hc.binVars l m hm).1, (hc.binVars l m hm).2.backtrack h⟩
  · intro l hl
    rw [hf.1] at hl
    exact hc.pres l (List.mem_of_mem_take hl)
  · intro k l hk hkd
    rw [Pt.backtrack_at h] at hk
    rw [hf.2.2.1] at hkd
    rw [Pt.backtrack_reason h]
    exact hc.dec k l hk.1 (List.mem_of_mem_take hkd)
  · intro k l hk
    rw [Pt.backtrack_at h] at hk
    have := hc.rs k l hk.1
    unfold ReasonAt at this ⊢
    rw [Pt.backtrack_reason h]
    cases hr : p.reason l.var with
    | unit =>
      simp only [hr] at this ⊢
      rcases this with h1 | h1
      · left
        rw [hf.2.2.1]
        obtain ⟨i, hi⟩ := List.mem_iff_getElem?.1 h1
        rw [List.mem_iff_getElem?]
        refine ⟨i, ?_⟩
        rw [List.getElem?_take]
        have hil : i < level := by
          by_contra hge
          obtain ⟨a, ha⟩ := List.getElem?_eq_some_iff.1 hi
          obtain ⟨b, hb⟩ := List.getElem?_eq_some_iff.1 h
          rcases Nat.lt_or_eq_of_le (Nat.not_lt.1 hge) with hlt | heq
          · have := List.pairwise_iff_getElem.1 hc.tr.sorted _ _ b a hlt
            rw [ha, hb] at this; omega
          · subst heq
            rw [hi] at h
            simp at h; omega
        simp [hil, hi]
      · right
        rw [hf.2.2.1, lvl_take hc.tr.sorted h hk.2]; exact h1
    | binary m =>
      simp only [hr] at this ⊢
      obtain ⟨⟨j, hj, hat⟩, hb⟩ := this
      exact ⟨⟨j, hj, (Pt.backtrack_at h).2 ⟨hat, by omega⟩⟩, hb⟩
    | long c =>
      simp only [hr] at this ⊢
      obtain ⟨hlive, rest, hcl, hrest⟩ := this
      refine ⟨hlive, rest, hcl, fun m hm => ?_⟩
      obtain ⟨j, hj, hat⟩ := hrest m hm
      exact ⟨j, hj, (Pt.backtrack_at h).2 ⟨hat, by omega⟩⟩

theorem BInv.backtrack {ex : Lit → Lit → Prop} (hc : CInv pres C p) (hb : BInv C p ex)
    (h : p.decisions[level]? = some n)
    (hex : ∀ l m, ex l m → level < p.level l.var) :
    BInv C (p.backtrack level).1 (fun _ _ => False) := by
  intro l hd m hm
  obtain ⟨hd, hl⟩ := Pt.backtrack_done hc.tr h hd
  rcases hb l hd m hm with ⟨h1, h2⟩ | h1
  · left
    rw [Pt.backtrack_level h, Pt.backtrack_level h]
    exact ⟨Pt.backtrack_keep hc.tr h (hc.binVars l m hm).2 h1 (by omega), h2⟩
  · have := hex l m h1; omega

theorem WInv.backtrack {ex : Nat → Lit → Prop} (hc : CInv pres C p) (hw : WInv C p ex)
    (h : p.decisions[level]? = some n)
    (hex : ∀ c l, ex c l → level < p.level l.var) :
    WInv C (p.backtrack level).1 (fun _ _ => False) := by
  intro c hcl x hx hd
  obtain ⟨hd, hl⟩ := Pt.backtrack_done hc.tr h hd
  rcases hw c hcl x hx hd with ⟨t, h0, h1, h2⟩ | h1
  · left
    simp only [Pt.backtrack_level h]
    simp only [Lit.var_neg] at hl
    exact ⟨t, h0, Pt.backtrack_keep hc.tr h (hc.vars c hcl t h0).2 h1 (by omega), h2⟩
  · have := hex c _ h1; omega

end
end Varisat.Solver
