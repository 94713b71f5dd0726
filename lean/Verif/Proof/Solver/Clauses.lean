import Verif.Model.Solver.Prop
import Verif.Proof.Solver.Trail
/-!
# Clauses, reasons and the invariants of propagation
-/
namespace Varisat.Solver

/-- The clauses of a solver state: `m ∈ bin l` is the clause `¬l ∨ m`. -/
structure Cl where
  bin : Lit → List Lit
  lits : Nat → List Lit
  live : Nat → Prop

/-- The reason of the literal at position `k` of the trail is a clause with all other literals false
before, or it is a decision or in level 0. -/
def ReasonAt (C : Cl) (p : Pt) (k : Nat) (l : Lit) : Prop :=
  match p.reason l.var with
  | .unit => k ∈ p.decisions ∨ lvl p.decisions k = 0
  | .binary m => (∃ j, j < k ∧ p.At j m.neg) ∧ l ∈ C.bin m.neg
  | .long c => C.live c ∧ ∃ rest, C.lits c = l :: rest ∧ ∀ m ∈ rest, ∃ j, j < k ∧ p.At j m.neg

/-- The literal was propagated. -/
def Pt.Done (p : Pt) (l : Lit) : Prop := ∃ k, k < p.qhead ∧ p.At k l

/-- Clauses are well formed and agree with the trail. `pres v` says that variable `v` is in use. -/
structure CInv (pres : Nat → Prop) (C : Cl) (p : Pt) : Prop where
  tr : p.Ok
  len : ∀ c, C.live c → 3 ≤ (C.lits c).length
  nodup : ∀ c, C.live c → ((C.lits c).map Lit.var).Nodup
  vars : ∀ c, C.live c → ∀ l ∈ C.lits c, pres l.var ∧ p.Att l.var
  binSym : ∀ l m, m ∈ C.bin l → l.neg ∈ C.bin m.neg
  binNe : ∀ l m, m ∈ C.bin l → m.var ≠ l.var
  binVars : ∀ l m, m ∈ C.bin l → pres m.var ∧ p.Att m.var
  pres : ∀ l ∈ p.trail, pres l.var
  dec : ∀ k l, p.At k l → k ∈ p.decisions → p.reason l.var = .unit
  rs : ∀ k l, p.At k l → ReasonAt C p k l

/-- Propagated literals have all their binary clauses satisfied, up to exceptions. -/
def BInv (C : Cl) (p : Pt) (ex : Lit → Lit → Prop) : Prop :=
  ∀ l, p.Done l → ∀ m ∈ C.bin l, (p.isTrue m = true ∧ p.level m.var ≤ p.level l.var) ∨ ex l m

/-- A clause with a propagated false watched literal has a literal that is true since at most the level
of the watched literal, up to exceptions. -/
def WInv (C : Cl) (p : Pt) (ex : Nat → Lit → Prop) : Prop :=
  ∀ c, C.live c → ∀ x ∈ (C.lits c).take 2, p.Done x.neg →
    (∃ t ∈ C.lits c, p.isTrue t = true ∧ p.level t.var ≤ p.level x.var) ∨ ex c x.neg

/-- The watch lists contain the first two literals of each clause. -/
structure WOk (C : Cl) (w : Lit → List Watch) : Prop where
  has : ∀ c, C.live c → ∀ x ∈ (C.lits c).take 2, ∃ y ∈ w x.neg, y.cref = c
  good : ∀ l, ∀ y ∈ w l, C.live y.cref ∧ y.blocking ∈ C.lits y.cref ∧ l.neg ∈ (C.lits y.cref).take 2
  nodup : ∀ l, ((w l).map Watch.cref).Nodup

/-- An assignment satisfies all clauses. -/
structure Cl.Sat (C : Cl) (a : Asg) : Prop where
  bin : ∀ l m, m ∈ C.bin l → l.holds a → m.holds a
  long : ∀ c, C.live c → clauseSat a (C.lits c)

/-- The literal is fixed: true in level 0 or a removed unit. -/
def Pt.Root (p : Pt) (l : Lit) : Prop :=
  p.isTrue l = true ∧ ((∃ k, p.At k l ∧ lvl p.decisions k = 0) ∨ (p.node l.var).depth = none)

/-- The decisions at most up to position `k`. -/
def Pt.Dec (p : Pt) (l : Lit) : Prop := ∃ k, k ∈ p.decisions ∧ p.At k l

theorem bin_sound {C : Cl} {a : Asg} (h : C.Sat a) {l m : Lit} (hm : m ∈ C.bin l)
    (hn : ¬ m.holds a) : ¬ l.holds a := fun hl => hn (h.bin l m hm hl)

/-- Everything on the trail follows from the clauses, the fixed literals and the decisions at or before
it. -/
theorem trail_implied {pres : Nat → Prop} {C : Cl} {p : Pt} (h : CInv pres C p) {a : Asg} (hs : C.Sat a)
    (hr : ∀ k l, p.At k l → p.reason l.var = .unit → lvl p.decisions k = 0 → l.holds a) (n : Nat) (hd : ∀ k l, p.At k l → k ∈ p.decisions → k ≤ n → l.holds a) :
    ∀ k, k ≤ n → ∀ l, p.At k l → l.holds a := by
  intro k
  induction k using Nat.strongRecOn with
  | ind k ih =>
    intro hk l hl
    have hrs := h.rs k l hl
    unfold ReasonAt at hrs
    split at hrs
    · rename_i hu
      rcases hrs with hrs | hrs
      · exact hd k l hl hrs hk
      · exact hr k l hl hu hrs
    · obtain ⟨⟨j, hj, hat⟩, hb⟩ := hrs
      exact hs.bin _ _ hb (ih j hj (by omega) _ hat)
    · obtain ⟨hlive, rest, hc, hrest⟩ := hrs
      have := hs.long _ hlive
      rw [hc, clauseSat_cons] at this
      rcases this with this | ⟨m, hm, hma⟩
      · exact this
      · exfalso
        obtain ⟨j, hj, hat⟩ := hrest m hm
        have := ih j hj (by omega) _ hat
        rw [Lit.holds_neg] at this
        exact this hma

section enqueue
variable {pres : Nat → Prop} {C : Cl} {p : Pt} {m : Lit} {r : Reason}

theorem Pt.done_enqueue {l : Lit} (h : p.Ok) : (p.enqueue m r).Done l ↔ p.Done l := by
  unfold Pt.Done
  constructor
  · rintro ⟨k, hk, hat⟩
    rw [Pt.at_enqueue] at hat
    rcases hat with hat | ⟨rfl, rfl⟩
    · exact ⟨k, hk, hat⟩
    · have := h.qle
      simp at hk; omega
  · rintro ⟨k, hk, hat⟩
    exact ⟨k, hk, Pt.at_enqueue.2 (.inl hat)⟩

theorem Pt.Done.assigned {l : Lit} (h : p.Ok) (hd : p.Done l) : p.value l.var ≠ none := by
  obtain ⟨k, _, hk⟩ := hd
  rw [h.val l hk.mem]; simp

theorem ReasonAt.enqueue (h : p.Ok) (hu : p.value m.var = none) {k : Nat} {l : Lit} (hk : p.At k l)
    (hr : ReasonAt C p k l) : ReasonAt C (p.enqueue m r) k l := by
  unfold ReasonAt at *
  rw [Pt.enqueue_reason_of_assigned hu (by rw [h.val l hk.mem]; simp)]
  cases hp : p.reason l.var with
  | unit => simpa [hp] using hr
  | binary x =>
    simp only [hp] at hr ⊢
    obtain ⟨⟨j, hj, hat⟩, hb⟩ := hr
    exact ⟨⟨j, hj, Pt.at_enqueue.2 (.inl hat)⟩, hb⟩
  | long c =>
    simp only [hp] at hr ⊢
    obtain ⟨hlive, rest, hc, hrest⟩ := hr
    refine ⟨hlive, rest, hc, fun x hx => ?_⟩
    obtain ⟨j, hj, hat⟩ := hrest x hx
    exact ⟨j, hj, Pt.at_enqueue.2 (.inl hat)⟩

theorem CInv.enqueue (h : CInv pres C p) (hu : p.value m.var = none) (hp : pres m.var)
    (hr : match r with
      | .unit => lvl p.decisions p.trail.length = 0
      | .binary x => (∃ j, p.At j x.neg) ∧ m ∈ C.bin x.neg
      | .long c => C.live c ∧ ∃ rest, C.lits c = m :: rest ∧ ∀ x ∈ rest, ∃ j, p.At j x.neg) :
    CInv pres C (p.enqueue m r) := by
  have hr' : ReasonAt C (p.enqueue m r) p.trail.length m := by
    unfold ReasonAt
    rw [Pt.enqueue_reason_self]
    cases r with
    | unit => exact .inr hr
    | binary x =>
      obtain ⟨⟨j, hat⟩, hb⟩ := hr
      exact ⟨⟨j, hat.lt, Pt.at_enqueue.2 (.inl hat)⟩, hb⟩
    | long c =>
      obtain ⟨hlive, rest, hc, hrest⟩ := hr
      refine ⟨hlive, rest, hc, fun x hx => ?_⟩
      obtain ⟨j, hat⟩ := hrest x hx
      exact ⟨j, hat.lt, Pt.at_enqueue.2 (.inl hat)⟩
  constructor
  · exact h.tr.enqueue hu
  · exact h.len
  · exact h.nodup
  · intro c hc l hl
    exact ⟨(h.vars c hc l hl).1, (h.vars c hc l hl).2.enqueue⟩
  · exact h.binSym
  · exact h.binNe
  · intro l x hx
    exact ⟨(h.binVars l x hx).1, (h.binVars l x hx).2.enqueue⟩
  · intro l hl
    simp at hl
    rcases hl with hl | rfl
    · exact h.pres l hl
    · exact hp
  · intro k l hk hkd
    rw [Pt.at_enqueue] at hk
    rcases hk with hk | ⟨rfl, rfl⟩
    · rw [Pt.enqueue_reason_of_assigned hu (by rw [h.tr.val l hk.mem]; simp)]
      exact h.dec k l hk hkd
    · exact absurd (h.tr.dlt _ hkd) (by omega)
  · intro k l hk
    rw [Pt.at_enqueue] at hk
    rcases hk with hk | ⟨rfl, rfl⟩
    · exact (h.rs k l hk).enqueue h.tr hu hk
    · exact hr'

theorem BInv.enqueue {ex : Lit → Lit → Prop} (ht : p.Ok) (h : BInv C p ex) (hu : p.value m.var = none) :
    BInv C (p.enqueue m r) ex := by
  intro l hl x hx
  rw [Pt.done_enqueue ht] at hl
  rcases h l hl x hx with ⟨h1, h2⟩ | h1
  · left
    refine ⟨Pt.enqueue_isTrue_mono hu h1, ?_⟩
    rw [Pt.enqueue_level_of_assigned hu (by rw [Pt.isTrue_iff.1 h1]; simp),
      Pt.enqueue_level_of_assigned hu (hl.assigned ht)]
    exact h2
  · exact .inr h1

theorem WInv.enqueue {ex : Nat → Lit → Prop} (ht : p.Ok) (h : WInv C p ex) (hu : p.value m.var = none) :
    WInv C (p.enqueue m r) ex := by
  intro c hc x hx hd
  rw [Pt.done_enqueue ht] at hd
  rcases h c hc x hx hd with ⟨t, h0, h1, h2⟩ | h1
  · left
    refine ⟨t, h0, Pt.enqueue_isTrue_mono hu h1, ?_⟩
    rw [Pt.enqueue_level_of_assigned hu (by rw [Pt.isTrue_iff.1 h1]; simp),
      Pt.enqueue_level_of_assigned hu (by simpa using hd.assigned ht)]
    exact h2
  · exact .inr h1

end enqueue

/-- `q` is `p` with propagated literals appended. -/
inductive Ext (p : Pt) : Pt → Prop
  | refl : Ext p p
  | step {q : Pt} {m : Lit} {r : Reason} : Ext p q → q.value m.var = none → r ≠ .unit →
      Ext p (q.enqueue m r)

namespace Ext
variable {p q : Pt}

theorem trans {r : Pt} (h : Ext p q) (h2 : Ext q r) : Ext p r := by
  induction h2 with
  | refl => exact h
  | step _ hu hr ih => exact .step ih hu hr
theorem decisions (h : Ext p q) : q.decisions = p.decisions := by
  induction h with
  | refl => rfl
  | step _ _ _ ih => exact ih
theorem qhead (h : Ext p q) : q.qhead = p.qhead := by
  induction h with
  | refl => rfl
  | step _ _ _ ih => exact ih
theorem last (h : Ext p q) : q.last = p.last := by
  induction h with
  | refl => rfl
  | step _ _ _ ih => exact ih
theorem unitsRemoved (h : Ext p q) : q.unitsRemoved = p.unitsRemoved := by
  induction h with
  | refl => rfl
  | step _ _ _ ih => exact ih
theorem curLevel (h : Ext p q) : q.curLevel = p.curLevel := by rw [Pt.curLevel, h.decisions]; rfl
theorem at_ (h : Ext p q) {k : Nat} {l : Lit} (hk : p.At k l) : q.At k l := by
  induction h with
  | refl => exact hk
  | step _ _ _ ih => exact Pt.at_enqueue.2 (.inl ih)
theorem trail (h : Ext p q) : ∃ t, q.trail = p.trail ++ t := by
  induction h with
  | refl => exact ⟨[], by simp⟩
  | @step _ m _ _ _ _ ih => obtain ⟨t, ht⟩ := ih; exact ⟨t ++ [m], by simp [ht]⟩
theorem isTrue (h : Ext p q) {l : Lit} (hl : p.isTrue l = true) : q.isTrue l = true := by
  induction h with
  | refl => exact hl
  | step _ hu _ ih => exact Pt.enqueue_isTrue_mono hu ih
theorem isFalse (h : Ext p q) {l : Lit} (hl : p.isFalse l = true) : q.isFalse l = true := by
  rw [← Pt.isTrue_neg] at *; exact h.isTrue hl
theorem value (h : Ext p q) {v : Nat} (hv : p.value v ≠ none) : q.value v = p.value v := by
  induction h with
  | refl => rfl
  | step _ hu _ ih =>
    rw [Pt.enqueue_value_ne]
    · exact ih
    · rintro rfl; rw [ih] at hu; exact hv hu
theorem node (h : Ext p q) {v : Nat} (hv : p.value v ≠ none) : q.node v = p.node v := by
  induction h with
  | refl => rfl
  | step h' hu _ ih =>
    rw [Pt.enqueue_node_ne]
    · exact ih
    · rintro rfl; rw [h'.value hv] at hu; exact hv hu
theorem att (h : Ext p q) {v : Nat} (hv : p.Att v) : q.Att v := by
  induction h with
  | refl => exact hv
  | step _ _ _ ih => exact ih.enqueue
theorem root (h : Ext p q) {l : Lit} (hl : p.Root l) : q.Root l := by
  have hv : p.value l.var ≠ none := by rw [Pt.isTrue_iff.1 hl.1]; simp
  refine ⟨h.isTrue hl.1, ?_⟩
  rcases hl.2 with ⟨k, h1, h2⟩ | h1
  · exact .inl ⟨k, h.at_ h1, by rw [h.decisions]; exact h2⟩
  · exact .inr (by rw [h.node hv]; exact h1)
/-- A literal with unit reason was there before. -/
theorem unit (h : Ext p q) {k : Nat} {l : Lit} (hk : q.At k l)
    (hr : q.reason l.var = .unit) : p.At k l := by
  induction h with
  | refl => exact hk
  | @step q m r h' hu hne ih =>
    rw [Pt.at_enqueue] at hk
    by_cases hv : l.var = m.var
    · rw [hv, Pt.enqueue_reason_self] at hr
      exact absurd hr hne
    · rcases hk with hk | ⟨_, rfl⟩
      · apply ih hk
        unfold Pt.reason at *
        rwa [Pt.enqueue_node_ne hv] at hr
      · exact absurd rfl hv

end Ext

/-- A fixed literal stays fixed. -/
theorem Pt.Root.enqueue {p : Pt} {m l : Lit} {r : Reason} (hu : p.value m.var = none)
    (h : p.Root l) : (p.enqueue m r).Root l := by
  obtain ⟨h1, h2⟩ := h
  refine ⟨Pt.enqueue_isTrue_mono hu h1, ?_⟩
  rcases h2 with ⟨k, h2, h3⟩ | h2
  · exact .inl ⟨k, Pt.at_enqueue.2 (.inl h2), h3⟩
  · right
    rw [Pt.enqueue_node_ne]
    · exact h2
    · intro hv; rw [Pt.isTrue_iff, hv, hu] at h1; simp at h1

end Varisat.Solver
