import Verif.Model.Solver.Trail
import Verif.Proof.Lit
import Mathlib.Tactic.ByContra
/-!
# Invariants of the trail
-/
namespace Varisat.Solver

@[simp] theorem put_same {ι β : Type} [DecidableEq ι] (f : ι → β) (i : ι) (b : β) :
    put f i b i = b := if_pos rfl
theorem put_ne {ι β : Type} [DecidableEq ι] (f : ι → β) {i j : ι} (b : β) (h : j ≠ i) :
    put f i b j = f j := if_neg h

/-- The decision level of trail position `k`. -/
def lvl (ds : List Nat) (k : Nat) : Nat := ds.countP (fun d => decide (d ≤ k))

theorem lvl_append (a b : List Nat) (k : Nat) : lvl (a ++ b) k = lvl a k + lvl b k := by
  simp [lvl, List.countP_append]
theorem lvl_le (ds : List Nat) (k : Nat) : lvl ds k ≤ ds.length := List.countP_le_length
theorem lvl_mono (ds : List Nat) {j k : Nat} (h : j ≤ k) : lvl ds j ≤ lvl ds k := by
  unfold lvl
  apply List.countP_mono_left
  intro d _; simp; omega
theorem lvl_all {ds : List Nat} {k : Nat} (h : ∀ d ∈ ds, d ≤ k) : lvl ds k = ds.length := by
  unfold lvl; rw [List.countP_eq_length]; simpa using h
theorem lvl_none {ds : List Nat} {k : Nat} (h : ∀ d ∈ ds, k < d) : lvl ds k = 0 := by
  unfold lvl; rw [List.countP_eq_zero]; simpa using h
/-- With increasing decisions, position `k` is in level at most `j` iff it is before decision `j`. -/
theorem lvl_le_iff {ds : List Nat} (hs : ds.Pairwise (· < ·)) {j d k : Nat} (hd : ds[j]? = some d) :
    lvl ds k ≤ j ↔ k < d := by
  have hj : j < ds.length := (List.getElem?_eq_some_iff.1 hd).1
  have hsplit : ds = ds.take j ++ d :: ds.drop (j + 1) := by
    rw [List.getElem?_eq_some_iff] at hd
    obtain ⟨h, rfl⟩ := hd
    rw [← List.drop_eq_getElem_cons]; simp
  have hlen : (ds.take j).length = j := by simp; omega
  rw [hsplit] at hs
  rw [List.pairwise_append, List.pairwise_cons] at hs
  obtain ⟨_, ⟨h2, _⟩, h3⟩ := hs
  rw [hsplit, lvl_append]
  constructor
  · intro h
    by_contra hk
    have h1 : lvl (ds.take j) k = j := by
      rw [lvl_all, hlen]
      intro x hx
      have := h3 x hx d (by simp)
      omega
    have h4 : 0 < lvl (d :: ds.drop (j + 1)) k := by
      unfold lvl; rw [List.countP_pos_iff]; exact ⟨d, by simp, by simp; omega⟩
    omega
  · intro hk
    have h1 : lvl (d :: ds.drop (j + 1)) k = 0 := by
      apply lvl_none
      intro x hx
      rcases List.mem_cons.1 hx with rfl | hx
      · exact hk
      · have := h2 x hx; omega
    have := lvl_le (ds.take j) k
    omega
theorem lvl_take {ds : List Nat} (hs : ds.Pairwise (· < ·)) {j d k : Nat} (hd : ds[j]? = some d)
    (hk : k < d) : lvl (ds.take j) k = lvl ds k := by
  have hj : j < ds.length := (List.getElem?_eq_some_iff.1 hd).1
  have hsplit : ds = ds.take j ++ d :: ds.drop (j + 1) := by
    rw [List.getElem?_eq_some_iff] at hd
    obtain ⟨h, rfl⟩ := hd
    rw [← List.drop_eq_getElem_cons]; simp
  rw [hsplit] at hs
  rw [List.pairwise_append, List.pairwise_cons] at hs
  obtain ⟨_, ⟨h2, _⟩, h3⟩ := hs
  conv => rhs; rw [hsplit, lvl_append]
  rw [lvl_none (ds := d :: ds.drop (j + 1))]
  · rfl
  intro x hx
  rcases List.mem_cons.1 hx with rfl | hx
  · exact hk
  · have := h2 x hx; omega

namespace Pt

/-- Literal `l` is at position `k` of the trail. -/
def At (p : Pt) (k : Nat) (l : Lit) : Prop := p.trail[k]? = some l

theorem At.lt {p : Pt} {k : Nat} {l : Lit} (h : p.At k l) : k < p.trail.length :=
  (List.getElem?_eq_some_iff.1 h).1
theorem At.mem {p : Pt} {k : Nat} {l : Lit} (h : p.At k l) : l ∈ p.trail := List.mem_of_getElem? h
theorem At.of_mem {p : Pt} {l : Lit} (h : l ∈ p.trail) : ∃ k, p.At k l :=
  List.mem_iff_getElem?.1 h

theorem isTrue_iff {p : Pt} {l : Lit} : p.isTrue l = true ↔ p.value l.var = some (!l.isNeg) := by
  simp [isTrue]
theorem isFalse_iff {p : Pt} {l : Lit} : p.isFalse l = true ↔ p.value l.var = some l.isNeg := by
  simp [isFalse]
theorem isUnk_iff {p : Pt} {l : Lit} : p.isUnk l = true ↔ p.value l.var = none := by
  simp [isUnk]
theorem isTrue_neg {p : Pt} {l : Lit} : p.isTrue l.neg = p.isFalse l := by
  simp [isTrue, isFalse]
theorem isFalse_neg {p : Pt} {l : Lit} : p.isFalse l.neg = p.isTrue l := by
  simp [isTrue, isFalse]
theorem not_true_false {p : Pt} {l : Lit} (h : p.isTrue l = true) : p.isFalse l = false := by
  rw [isTrue_iff] at h; simp [isFalse, h]
theorem not_false_true {p : Pt} {l : Lit} (h : p.isFalse l = true) : p.isTrue l = false := by
  rw [isFalse_iff] at h; simp [isTrue, h]
theorem unk_of {p : Pt} {l : Lit} (h1 : p.isTrue l = false) (h2 : p.isFalse l = false) :
    p.value l.var = none := by
  simp only [isTrue, isFalse, beq_eq_false_iff_ne] at h1 h2
  cases h : p.value l.var with
  | none => rfl
  | some b => rw [h] at h1 h2; cases b <;> cases hn : l.isNeg <;> simp_all
theorem litValue_true {p : Pt} {l : Lit} : p.litValue l = some true ↔ p.isTrue l = true := by
  rw [isTrue_iff, litValue]
  cases h : p.value l.var with
  | none => simp
  | some b => cases b <;> cases hn : l.isNeg <;> simp
theorem litValue_false {p : Pt} {l : Lit} : p.litValue l = some false ↔ p.isFalse l = true := by
  rw [isFalse_iff, litValue]
  cases h : p.value l.var with
  | none => simp
  | some b => cases b <;> cases hn : l.isNeg <;> simp
theorem litValue_none {p : Pt} {l : Lit} : p.litValue l = none ↔ p.value l.var = none := by
  simp [litValue]

/-- The trail, assignment and graph agree. -/
structure Ok (p : Pt) : Prop where
  val : ∀ l ∈ p.trail, p.value l.var = some (!l.isNeg)
  nodup : (p.trail.map Lit.var).Nodup
  depth : ∀ k l, p.At k l → (p.node l.var).depth = some (k + 1)
  level : ∀ k l, p.At k l → p.level l.var = lvl p.decisions k
  off : ∀ v, p.value v ≠ none → (∃ l ∈ p.trail, l.var = v) ∨ (p.node v).depth = none
  sorted : p.decisions.Pairwise (· < ·)
  dlt : ∀ d ∈ p.decisions, d < p.trail.length
  qle : p.qhead ≤ p.trail.length
  dq : ∀ d ∈ p.decisions, d ≤ p.qhead

/-- The variable is not a removed unit. -/
def Att (p : Pt) (v : Nat) : Prop := p.value v ≠ none → ∃ l ∈ p.trail, l.var = v

namespace Ok
variable {p : Pt}

theorem at_true (h : p.Ok) {k : Nat} {l : Lit} (hk : p.At k l) : p.isTrue l = true :=
  isTrue_iff.2 (h.val l hk.mem)

theorem uniq (h : p.Ok) {j k : Nat} {l m : Lit} (hj : p.At j l) (hk : p.At k m)
    (hv : l.var = m.var) : j = k ∧ l = m := by
  have h1 := h.depth j l hj
  have h2 := h.depth k m hk
  rw [hv] at h1
  have : j = k := by rw [h1] at h2; simpa using h2
  subst this
  exact ⟨rfl, by have := hj.symm.trans hk; simpa using this⟩

/-- A true literal of an attached variable is on the trail. -/
theorem at_of_true (h : p.Ok) {l : Lit} (ha : p.Att l.var) (ht : p.isTrue l = true) :
    ∃ k, p.At k l := by
  rw [isTrue_iff] at ht
  obtain ⟨m, hm, hv⟩ := ha (by rw [ht]; simp)
  have h2 := h.val m hm
  rw [hv, ht] at h2
  have : l = m := Lit.ext_var_neg hv.symm (by cases h1 : l.isNeg <;> cases h2' : m.isNeg <;> simp_all)
  subst this
  exact At.of_mem hm

theorem at_of_false (h : p.Ok) {l : Lit} (ha : p.Att l.var) (ht : p.isFalse l = true) :
    ∃ k, p.At k l.neg :=
  h.at_of_true (by simpa using ha) (by rw [isTrue_neg]; exact ht)

theorem at_false (h : p.Ok) {k : Nat} {l : Lit} (hk : p.At k l.neg) : p.isFalse l = true := by
  rw [← isTrue_neg]; exact h.at_true hk

/-- Pending literals are in the current level. -/
theorem pending_level (h : p.Ok) {k : Nat} {l : Lit} (hk : p.At k l) (hq : p.qhead ≤ k) :
    p.level l.var = p.curLevel := by
  rw [h.level k l hk]
  exact lvl_all (fun d hd => Nat.le_trans (h.dq d hd) hq)

theorem level_le (h : p.Ok) {k : Nat} {l : Lit} (hk : p.At k l) : p.level l.var ≤ p.curLevel := by
  rw [h.level k l hk]; exact lvl_le _ _

theorem level_mono (h : p.Ok) {j k : Nat} {l m : Lit} (hj : p.At j l) (hk : p.At k m) (hjk : j ≤ k) :
    p.level l.var ≤ p.level m.var := by
  rw [h.level j l hj, h.level k m hk]; exact lvl_mono _ hjk

theorem removed_iff (h : p.Ok) {l : Lit} (ht : p.value l.var ≠ none) :
    p.isRemovedUnit l.var = true ↔ ¬ ∃ m ∈ p.trail, m.var = l.var := by
  simp only [isRemovedUnit, beq_iff_eq]
  constructor
  · rintro h1 ⟨m, hm, hv⟩
    obtain ⟨k, hk⟩ := At.of_mem hm
    have := h.depth k m hk
    rw [hv, h1] at this; simp at this
  · intro h1
    rcases h.off _ ht with h2 | h2
    · exact absurd h2 h1
    · exact h2

end Ok

theorem At.enqueue_of {p : Pt} {k : Nat} {l m : Lit} {r : Reason} (h : p.At k l) :
    (p.enqueue m r).At k l := by
  unfold At enqueue at *
  simp only [List.getElem?_append, h.lt', if_true]
  exact h
where
  h.lt' := (List.getElem?_eq_some_iff.1 h).1

theorem at_enqueue {p : Pt} {k : Nat} {l m : Lit} {r : Reason} :
    (p.enqueue m r).At k l ↔ p.At k l ∨ (k = p.trail.length ∧ l = m) := by
  unfold At enqueue
  simp only
  rw [List.getElem?_append]
  split
  · rename_i h
    constructor
    · exact .inl
    · rintro (h1 | ⟨h1, _⟩)
      · exact h1
      · omega
  · rename_i h
    constructor
    · intro h1
      have : k - p.trail.length = 0 := by
        have := (List.getElem?_eq_some_iff.1 h1).1
        simp at this; omega
      rw [this] at h1
      right
      exact ⟨by omega, by simpa using h1.symm⟩
    · rintro (h1 | ⟨h1, h2⟩)
      · exact absurd ((List.getElem?_eq_some_iff.1 h1).1) h
      · subst h1; simp [h2]

section enqueue
variable {p : Pt} {m : Lit} {r : Reason}

theorem enqueue_value_ne {v : Nat} (h : v ≠ m.var) : (p.enqueue m r).value v = p.value v :=
  put_ne _ _ h
theorem enqueue_node_ne {v : Nat} (h : v ≠ m.var) : (p.enqueue m r).node v = p.node v :=
  put_ne _ _ h
@[simp] theorem enqueue_value_self : (p.enqueue m r).value m.var = some (!m.isNeg) := put_same ..
@[simp] theorem enqueue_reason_self : (p.enqueue m r).reason m.var = r := by simp [reason, enqueue]
@[simp] theorem enqueue_level_self : (p.enqueue m r).level m.var = p.curLevel := by
  simp [level, enqueue, curLevel]
@[simp] theorem enqueue_decisions : (p.enqueue m r).decisions = p.decisions := rfl
@[simp] theorem enqueue_qhead : (p.enqueue m r).qhead = p.qhead := rfl
@[simp] theorem enqueue_trail : (p.enqueue m r).trail = p.trail ++ [m] := rfl
@[simp] theorem enqueue_curLevel : (p.enqueue m r).curLevel = p.curLevel := rfl

theorem enqueue_isTrue_self : (p.enqueue m r).isTrue m = true := by rw [isTrue_iff]; simp

theorem mem_ne_of_unassigned (h : p.Ok) (hu : p.value m.var = none) {l : Lit} (hl : l ∈ p.trail) :
    l.var ≠ m.var := by
  intro hv
  have := h.val l hl
  rw [hv, hu] at this
  simp at this

theorem enqueue_isTrue_mono (hu : p.value m.var = none) {l : Lit} (h : p.isTrue l = true) :
    (p.enqueue m r).isTrue l = true := by
  rw [isTrue_iff] at *
  rw [enqueue_value_ne]
  · exact h
  · intro hv; rw [hv, hu] at h; simp at h
theorem enqueue_isFalse_mono (hu : p.value m.var = none) {l : Lit} (h : p.isFalse l = true) :
    (p.enqueue m r).isFalse l = true := by
  rw [← isTrue_neg] at *; exact enqueue_isTrue_mono hu h

theorem enqueue_level_of_assigned (hu : p.value m.var = none) {v : Nat} (hv : p.value v ≠ none) :
    (p.enqueue m r).level v = p.level v := by
  unfold level; rw [enqueue_node_ne]; rintro rfl; exact hv hu
theorem enqueue_reason_of_assigned (hu : p.value m.var = none) {v : Nat} (hv : p.value v ≠ none) :
    (p.enqueue m r).reason v = p.reason v := by
  unfold reason; rw [enqueue_node_ne]; rintro rfl; exact hv hu

/-- Enqueuing an unassigned literal in the current level. -/
theorem Ok.enqueue (h : p.Ok) (hu : p.value m.var = none) : (p.enqueue m r).Ok := by
  have hne : ∀ l ∈ p.trail, l.var ≠ m.var := fun l hl => mem_ne_of_unassigned h hu hl
  constructor
  · intro l hl
    rw [enqueue_trail, List.mem_append, List.mem_singleton] at hl
    rcases hl with hl | rfl
    · rw [enqueue_value_ne (hne l hl)]; exact h.val l hl
    · simp
  · rw [enqueue_trail, List.map_append, List.nodup_append]
    refine ⟨h.nodup, by simp, ?_⟩
    intro a ha b hb
    rw [List.mem_map] at ha
    obtain ⟨l, hl, rfl⟩ := ha
    simp at hb; subst hb
    exact hne l hl
  · intro k l hk
    rw [at_enqueue] at hk
    rcases hk with hk | ⟨rfl, rfl⟩
    · rw [enqueue_node_ne (hne l hk.mem)]; exact h.depth k l hk
    · simp [Pt.enqueue]
  · intro k l hk
    rw [at_enqueue] at hk
    rcases hk with hk | ⟨rfl, rfl⟩
    · unfold Pt.level; rw [enqueue_node_ne (hne l hk.mem)]; exact h.level k l hk
    · rw [enqueue_level_self, enqueue_decisions, lvl_all]; rfl
      intro d hd; exact Nat.le_of_lt (h.dlt d hd)
  · intro v hv
    by_cases hvm : v = m.var
    · left; exact ⟨m, by simp, hvm.symm⟩
    · rw [enqueue_value_ne hvm] at hv
      rw [enqueue_node_ne hvm]
      rcases h.off v hv with ⟨l, hl, hlv⟩ | h2
      · left; exact ⟨l, by simp [hl], hlv⟩
      · right; exact h2
  · exact h.sorted
  · intro d hd; simp; have := h.dlt d hd; omega
  · simp; have := h.qle; omega
  · exact h.dq

theorem Att.enqueue {v : Nat} (ha : p.Att v) : (p.enqueue m r).Att v := by
  intro hv
  by_cases hvm : v = m.var
  · exact ⟨m, by simp, hvm.symm⟩
  · rw [enqueue_value_ne hvm] at hv
    obtain ⟨l, hl, h2⟩ := ha hv
    exact ⟨l, by simp [hl], h2⟩

end enqueue

end Pt
end Varisat.Solver
