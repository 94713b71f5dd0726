import Verif.Spec.Queue
import Mathlib.Tactic.ByContra
/-!
# Lemmas about the decision heap
-/
namespace Varisat.Vsids

variable {α : Type} [LinearOrder α]

/-- `heap` and `position` are inverse to each other, apart from stale positions of the variables in
`e`, which are not in the heap. -/
structure WFe (e : Nat → Prop) (s : Vsids α) : Prop where
  heap : ∀ i, i < s.len → s.heap i < s.count ∧ s.position (s.heap i) = some i ∧ ¬ e (s.heap i)
  pos : ∀ v p, ¬ e v → s.position v = some p → p < s.len ∧ s.heap p = v

/-- The heap and the positions agree and are in range. -/
abbrev WF (s : Vsids α) : Prop := WFe (fun _ => False) s

/-- Every variable is at most as active as its parent. -/
def Ord (s : Vsids α) : Prop :=
  ∀ i, 0 < i → i < s.len → s.activity (s.heap i) ≤ s.activity (s.heap ((i - 1) / 2))

/-- What sifting does not change. -/
structure Same (s s' : Vsids α) : Prop where
  activity : s'.activity = s.activity
  count : s'.count = s.count
  len : s'.len = s.len
  bump : s'.bump = s.bump
  avail : ∀ v, (s'.position v).isSome = (s.position v).isSome

theorem Same.refl (s : Vsids α) : Same s s := ⟨rfl, rfl, rfl, rfl, fun _ => rfl⟩
theorem Same.trans {s t u : Vsids α} (h : Same s t) (k : Same t u) : Same s u :=
  ⟨k.activity.trans h.activity, k.count.trans h.count, k.len.trans h.len, k.bump.trans h.bump,
    fun v => (k.avail v).trans (h.avail v)⟩

theorem put_same {β : Type} (f : Nat → β) (i : Nat) (b : β) : put f i b i = b := if_pos rfl
theorem put_other {β : Type} (f : Nat → β) {i j : Nat} (b : β) (h : j ≠ i) : put f i b j = f j :=
  if_neg h

theorem heap_inj {e : Nat → Prop} {s : Vsids α} (h : WFe e s) {i j : Nat} (hi : i < s.len)
    (hj : j < s.len) (he : s.heap i = s.heap j) : i = j := by
  have h1 := (h.heap i hi).2.1
  rw [he, (h.heap j hj).2.1] at h1
  exact (Option.some.inj h1).symm

theorem move_wf {e : Nat → Prop} {s : Vsids α} (h : WFe e s) {pos to : Nat} (hp : pos < s.len)
    (ht : to < s.len) (hne : pos ≠ to) :
    WFe e (s.move (s.heap pos) pos (s.heap to) to) ∧
    Same s (s.move (s.heap pos) pos (s.heap to) to) := by
  have hv : s.heap pos ≠ s.heap to := fun he => hne (heap_inj h hp ht he)
  refine ⟨⟨?_, ?_⟩, ⟨rfl, rfl, rfl, rfl, ?_⟩⟩
  · intro i hi
    simp only [move] at hi ⊢
    by_cases h1 : i = pos
    · subst h1
      rw [put_same, put_same]
      exact ⟨(h.heap to ht).1, rfl, (h.heap to ht).2.2⟩
    · rw [put_other _ _ h1]
      by_cases h2 : i = to
      · subst h2
        rw [put_same, put_other _ _ hv, put_same]
        exact ⟨(h.heap pos hp).1, rfl, (h.heap pos hp).2.2⟩
      · rw [put_other _ _ h2, put_other _ _ (fun he => h2 (heap_inj h hi ht he)),
          put_other _ _ (fun he => h1 (heap_inj h hi hp he))]
        exact h.heap i hi
  · intro v p hev hpv
    simp only [move] at hpv ⊢
    by_cases h1 : v = s.heap to
    · subst h1
      rw [put_same] at hpv
      cases hpv
      exact ⟨hp, put_same _ _ _⟩
    · rw [put_other _ _ h1] at hpv
      by_cases h2 : v = s.heap pos
      · subst h2
        rw [put_same] at hpv
        cases hpv
        exact ⟨ht, by rw [put_other _ _ (Ne.symm hne), put_same]⟩
      · rw [put_other _ _ h2] at hpv
        obtain ⟨h3, h4⟩ := h.pos v p hev hpv
        refine ⟨h3, ?_⟩
        rw [put_other _ _ (by rintro rfl; exact h2 h4.symm),
          put_other _ _ (by rintro rfl; exact h1 h4.symm)]
        exact h4
  · intro v
    simp only [move]
    by_cases h1 : v = s.heap to
    · subst h1; rw [put_same, (h.heap to ht).2.1]; rfl
    · rw [put_other _ _ h1]
      by_cases h2 : v = s.heap pos
      · subst h2; rw [put_same, (h.heap pos hp).2.1]; rfl
      · rw [put_other _ _ h2]

/-- The heap property except between `pos` and its parent. -/
def UpInv (s : Vsids α) (pos : Nat) : Prop :=
  (∀ i, 0 < i → i < s.len → i ≠ pos → s.activity (s.heap i) ≤ s.activity (s.heap ((i - 1) / 2))) ∧
  ∀ c, 0 < c → c < s.len → (c - 1) / 2 = pos → 0 < pos →
    s.activity (s.heap c) ≤ s.activity (s.heap ((pos - 1) / 2))

theorem siftUpLoop_spec {e : Nat → Prop} (pos : Nat) : ∀ (s : Vsids α), WFe e s → pos < s.len →
    WFe e (s.siftUpLoop (s.heap pos) pos) ∧ Same s (s.siftUpLoop (s.heap pos) pos) ∧
    (UpInv s pos → Ord (s.siftUpLoop (s.heap pos) pos)) := by
  induction pos using Nat.strongRecOn with
  | _ pos ih =>
    intro s h hp
    rw [siftUpLoop]
    split
    · rename_i h0
      exact ⟨h, Same.refl s, fun hu i hi hl => hu.1 i hi hl (by omega)⟩
    · rename_i h0
      simp only
      split
      · rename_i hge
        refine ⟨h, Same.refl s, fun hu i hi hl => ?_⟩
        by_cases hip : i = pos
        · subst hip; exact hge
        · exact hu.1 i hi hl hip
      · rename_i hlt
        have hlt : s.activity (s.heap ((pos - 1) / 2)) < s.activity (s.heap pos) := not_le.1 hlt
        have hpar : (pos - 1) / 2 < pos := by omega
        have hne : pos ≠ (pos - 1) / 2 := by omega
        obtain ⟨hw, hs⟩ := move_wf h hp (by omega) hne
        have hh : (s.move (s.heap pos) pos (s.heap ((pos - 1) / 2)) ((pos - 1) / 2)).heap =
            put (put s.heap ((pos - 1) / 2) (s.heap pos)) pos (s.heap ((pos - 1) / 2)) := rfl
        have hat : (s.move (s.heap pos) pos (s.heap ((pos - 1) / 2)) ((pos - 1) / 2)).heap
            ((pos - 1) / 2) = s.heap pos := by
          rw [hh, put_other _ _ (Ne.symm hne), put_same]
        have key := ih ((pos - 1) / 2) hpar _ hw (by rw [hs.len]; omega)
        rw [hat] at key
        refine ⟨key.1, hs.trans key.2.1, fun hu => key.2.2 ?_⟩
        generalize hq : (pos - 1) / 2 = q at *
        refine ⟨?_, ?_⟩
        · intro i hi hl hiq
          rw [hs.len] at hl
          rw [hs.activity, hh]
          by_cases h1 : i = pos
          · subst h1
            rw [put_same, hq, put_other _ _ (by omega), put_same]
            exact le_of_lt hlt
          · rw [put_other _ _ h1, put_other _ _ hiq]
            by_cases h2 : (i - 1) / 2 = pos
            · rw [h2, put_same]
              have := hu.2 i hi hl h2 (by omega)
              rwa [hq] at this
            · by_cases h3 : (i - 1) / 2 = q
              · rw [h3, put_other _ _ (by omega), put_same]
                have := hu.1 i hi hl h1
                rw [h3] at this
                exact le_trans this (le_of_lt hlt)
              · rw [put_other _ _ h2, put_other _ _ h3]
                exact hu.1 i hi hl h1
        · intro c hc hl hcq hq0
          rw [hs.len] at hl
          rw [hs.activity, hh]
          rw [put_other _ (i := pos) (j := (q - 1) / 2) _ (by omega),
            put_other _ (i := q) (j := (q - 1) / 2) _ (by omega)]
          have hpq := hu.1 q hq0 (by omega) (by omega)
          by_cases h1 : c = pos
          · subst h1; rw [put_same]; exact hpq
          · rw [put_other _ _ h1, put_other _ _ (by omega)]
            have := hu.1 c hc hl h1
            rw [hcq] at this
            exact le_trans this hpq

theorem siftUp_spec {e : Nat → Prop} {s : Vsids α} (h : WFe e s) {pos : Nat} (hp : pos < s.len) :
    WFe e (s.siftUp pos) ∧ Same s (s.siftUp pos) ∧ (UpInv s pos → Ord (s.siftUp pos)) :=
  siftUpLoop_spec pos s h hp

/-- The heap property except between `pos` and its children. -/
def DownInv (s : Vsids α) (pos : Nat) : Prop :=
  (∀ i, 0 < i → i < s.len → (i - 1) / 2 ≠ pos →
    s.activity (s.heap i) ≤ s.activity (s.heap ((i - 1) / 2))) ∧
  ∀ c, 0 < c → c < s.len → (c - 1) / 2 = pos → 0 < pos →
    s.activity (s.heap c) ≤ s.activity (s.heap ((pos - 1) / 2))

/-- The choice of the largest of a node and its children. -/
theorem larger_spec (s : Vsids α) (pos : Nat) :
    ∃ c, s.larger (s.larger (pos, s.heap pos) (pos * 2 + 1)) (pos * 2 + 2) = (c, s.heap c) ∧
      (c = pos ∨ (c < s.len ∧ pos < c ∧ (c - 1) / 2 = pos ∧
        s.activity (s.heap pos) < s.activity (s.heap c))) ∧
      ∀ d, 0 < d → d < s.len → (d - 1) / 2 = pos →
        s.activity (s.heap d) ≤ s.activity (s.heap c) := by
  have child : ∀ d, 0 < d → (d - 1) / 2 = pos → d = pos * 2 + 1 ∨ d = pos * 2 + 2 := by
    intro d h0 h; omega
  have one : ∀ c k, s.larger (c, s.heap c) k =
      (if k < s.len ∧ s.activity (s.heap c) < s.activity (s.heap k) then (k, s.heap k)
       else (c, s.heap c)) := by
    intro c k
    simp only [larger]
    by_cases h1 : k < s.len
    · by_cases h2 : s.activity (s.heap c) < s.activity (s.heap k) <;> simp [h1, h2]
    · simp [h1]
  rw [one]
  by_cases h1 : pos * 2 + 1 < s.len ∧ s.activity (s.heap pos) < s.activity (s.heap (pos * 2 + 1))
  · rw [if_pos h1, one]
    by_cases h2 : pos * 2 + 2 < s.len ∧
        s.activity (s.heap (pos * 2 + 1)) < s.activity (s.heap (pos * 2 + 2))
    · rw [if_pos h2]
      refine ⟨_, rfl, .inr ⟨h2.1, by omega, by omega, lt_trans h1.2 h2.2⟩, ?_⟩
      intro d h0 hl hd
      rcases child d h0 hd with rfl | rfl
      · exact le_of_lt h2.2
      · exact le_refl _
    · rw [if_neg h2]
      refine ⟨_, rfl, .inr ⟨h1.1, by omega, by omega, h1.2⟩, ?_⟩
      intro d h0 hl hd
      rcases child d h0 hd with rfl | rfl
      · exact le_refl _
      · exact not_lt.1 fun h => h2 ⟨hl, h⟩
  · rw [if_neg h1, one]
    by_cases h2 : pos * 2 + 2 < s.len ∧
        s.activity (s.heap pos) < s.activity (s.heap (pos * 2 + 2))
    · rw [if_pos h2]
      refine ⟨_, rfl, .inr ⟨h2.1, by omega, by omega, h2.2⟩, ?_⟩
      intro d h0 hl hd
      rcases child d h0 hd with rfl | rfl
      · exact le_trans (not_lt.1 fun h => h1 ⟨hl, h⟩) (le_of_lt h2.2)
      · exact le_refl _
    · rw [if_neg h2]
      refine ⟨_, rfl, .inl rfl, ?_⟩
      intro d h0 hl hd
      rcases child d h0 hd with rfl | rfl
      · exact not_lt.1 fun h => h1 ⟨hl, h⟩
      · exact not_lt.1 fun h => h2 ⟨hl, h⟩

theorem siftDownLoop_spec {e : Nat → Prop} (fuel : Nat) : ∀ (s : Vsids α) (pos : Nat), WFe e s →
    pos < s.len → s.len ≤ fuel + pos →
    WFe e (s.siftDownLoop fuel (s.heap pos) pos) ∧ Same s (s.siftDownLoop fuel (s.heap pos) pos) ∧
    (DownInv s pos → Ord (s.siftDownLoop fuel (s.heap pos) pos)) := by
  induction fuel with
  | zero => intro s pos _ h1 h2; omega
  | succ fuel ih =>
    intro s pos h hp hf
    obtain ⟨c, hc, hor, hmax⟩ := larger_spec s pos
    simp only [siftDownLoop, hc]
    split
    · rename_i hcp
      subst hcp
      refine ⟨h, Same.refl s, fun hd i hi hl => ?_⟩
      by_cases h1 : (i - 1) / 2 = c
      · rw [h1]; exact hmax i hi hl h1
      · exact hd.1 i hi hl h1
    · rename_i hcp
      obtain ⟨hcl, hpc, hcpar, hlt⟩ := hor.resolve_left hcp
      obtain ⟨hw, hs⟩ := move_wf h hp hcl (Ne.symm hcp)
      have hh : (s.move (s.heap pos) pos (s.heap c) c).heap =
          put (put s.heap c (s.heap pos)) pos (s.heap c) := rfl
      have hat : (s.move (s.heap pos) pos (s.heap c) c).heap c = s.heap pos := by
        rw [hh, put_other _ _ hcp, put_same]
      have key := ih _ c hw (by rw [hs.len]; exact hcl) (by rw [hs.len]; omega)
      rw [hat] at key
      refine ⟨key.1, hs.trans key.2.1, fun hd => key.2.2 ?_⟩
      refine ⟨?_, ?_⟩
      · intro i hi hl hic
        rw [hs.len] at hl
        rw [hs.activity, hh]
        by_cases h1 : i = c
        · subst h1
          rw [put_other _ _ hcp, put_same, hcpar, put_same]
          exact le_of_lt hlt
        · by_cases h2 : i = pos
          · subst h2
            rw [put_same, put_other _ _ (by omega), put_other _ _ (by omega)]
            exact hd.2 c (by omega) hcl hcpar (by omega)
          · rw [put_other _ _ h2, put_other _ _ h1]
            by_cases h3 : (i - 1) / 2 = pos
            · rw [h3, put_same]; exact hmax i hi hl h3
            · rw [put_other _ _ h3, put_other _ _ hic]
              exact hd.1 i hi hl h3
      · intro d h0 hl hdc _
        rw [hs.len] at hl
        rw [hs.activity, hh, hcpar, put_same, put_other _ _ (by omega), put_other _ _ (by omega)]
        have := hd.1 d h0 hl (by omega)
        rwa [hdc] at this

theorem siftDown_spec {e : Nat → Prop} {s : Vsids α} (h : WFe e s) {pos : Nat} (hp : pos < s.len) :
    WFe e (s.siftDown pos) ∧ Same s (s.siftDown pos) ∧ (DownInv s pos → Ord (s.siftDown pos)) :=
  siftDownLoop_spec s.len s pos h hp (by omega)

theorem wf_init (ar : Arith α) : WF (new ar) ∧ Ord (new ar) :=
  ⟨⟨fun i hi => absurd hi (Nat.not_lt_zero _), fun v p _ hp => by simp [new] at hp⟩,
    fun i _ hi => absurd hi (Nat.not_lt_zero _)⟩

/-- Variables outside the range have no position. -/
theorem pos_range {s : Vsids α} (h : WF s) {v p : Nat} (hp : s.position v = some p) :
    v < s.count := by
  obtain ⟨h1, h2⟩ := h.pos v p id hp
  rw [← h2]; exact (h.heap p h1).1

theorem setVarCount_spec (ar : Arith α) {s : Vsids α} (h : WF s) {n : Nat} (hn : s.count ≤ n) :
    WF (s.setVarCount ar n) ∧ (Ord s → Ord (s.setVarCount ar n)) ∧
    ∀ v, ((s.setVarCount ar n).position v).isSome = (s.position v).isSome := by
  have hpos : ∀ v, (s.setVarCount ar n).position v = s.position v := by
    intro v
    simp only [setVarCount]
    split
    · rfl
    · rename_i hv
      cases hp : s.position v with
      | none => rfl
      | some p => exact absurd (pos_range h hp) hv
  refine ⟨⟨?_, ?_⟩, ?_, fun v => by rw [hpos]⟩
  · intro i hi
    obtain ⟨h1, h2, h3⟩ := h.heap i hi
    exact ⟨Nat.lt_of_lt_of_le h1 hn, (hpos _).trans h2, h3⟩
  · intro v p hv hp
    rw [hpos] at hp
    exact h.pos v p hv hp
  · intro ho i hi hl
    have h1 := (h.heap i hl).1
    have h2 := (h.heap ((i - 1) / 2) (Nat.lt_of_le_of_lt (by omega) hl)).1
    simp only [setVarCount, h1, h2, if_true]
    exact ho i hi hl

theorem rescale_spec (ar : Arith α) {s : Vsids α} (h : WF s) :
    WF (s.rescale ar) := ⟨h.heap, h.pos⟩

theorem bumpVar_spec {ar : Arith α} {pos : α → Prop} (ok : ArithOk ar pos) {s : Vsids α} (h : WF s)
    (hb : pos s.bump) (var : Nat) :
    WF (s.bumpVar ar var) ∧ (Ord s → Ord (s.bumpVar ar var)) ∧ pos (s.bumpVar ar var).bump ∧
    (s.bumpVar ar var).count = s.count ∧
    (∀ v, ((s.bumpVar ar var).position v).isSome = (s.position v).isSome) ∧
    ∃ f : α → α, (f = id ∨ f = ar.shrink) ∧ ∀ v, (s.bumpVar ar var).activity v =
      f (if v = var then ar.add (s.activity v) s.bump else s.activity v) := by
  -- the state before sifting
  obtain ⟨s1, f, hs1, hf, hmono, hact, hheap, hlen, hpos, hcount, hbump⟩ : ∃ (s1 : Vsids α) (f : α → α),
      s.bumpVar ar var = (match s1.position var with | some p => s1.siftUp p | none => s1) ∧
      (f = id ∨ f = ar.shrink) ∧ (∀ x y, x ≤ y → f x ≤ f y) ∧
      (∀ v, s1.activity v = f (if v = var then ar.add (s.activity v) s.bump else s.activity v)) ∧
      s1.heap = s.heap ∧ s1.len = s.len ∧ s1.position = s.position ∧ s1.count = s.count ∧
      pos s1.bump := by
    have hput : ∀ v, put s.activity var (ar.add (s.activity var) s.bump) v =
        if v = var then ar.add (s.activity v) s.bump else s.activity v := by
      intro v
      unfold put
      by_cases hv : v = var
      · subst hv; simp
      · simp [hv]
    by_cases hbig : ar.big (ar.add (s.activity var) s.bump) = true
    · refine ⟨({ s with activity := put s.activity var (ar.add (s.activity var) s.bump) } :
          Vsids α).rescale ar, ar.shrink, ?_, .inr rfl, ok.mono,
        fun v => congrArg ar.shrink (hput v), rfl, rfl, rfl, rfl, ok.shrink _ hb⟩
      simp only [bumpVar, if_pos hbig]; rfl
    · refine ⟨{ s with activity := put s.activity var (ar.add (s.activity var) s.bump) }, id, ?_,
        .inl rfl, fun _ _ h => h, hput, rfl, rfl, rfl, rfl, hb⟩
      simp only [bumpVar, hbig]; rfl
  have hw : WF s1 := ⟨by rw [hheap, hlen, hpos, hcount]; exact h.heap,
    by rw [hheap, hlen, hpos]; exact h.pos⟩
  rw [hs1]
  have hup : ∀ v, s.activity v ≤ if v = var then ar.add (s.activity v) s.bump else s.activity v := by
    intro v; split
    · exact ok.add _ _ hb
    · exact le_refl _
  cases hp : s1.position var with
  | none =>
    refine ⟨hw, ?_, hbump, hcount, fun v => by rw [hpos], f, hf, hact⟩
    intro ho i hi hl
    simp only [hheap, hact, hlen] at *
    have hni : ∀ i, i < s.len → s.heap i ≠ var := by
      intro i hi he
      have := (h.heap i hi).2.1
      rw [he, ← hpos, hp] at this
      cases this
    rw [if_neg (hni i hl), if_neg (hni _ (Nat.lt_of_le_of_lt (by omega) hl))]
    exact hmono _ _ (ho i hi hl)
  | some p =>
    obtain ⟨h1, h2⟩ := hw.pos var p id hp
    obtain ⟨k1, k2, k3⟩ := siftUp_spec hw h1
    refine ⟨k1, fun ho => k3 ?_, ?_, k2.count.trans hcount, fun v => by rw [k2.avail, hpos], f, hf,
      fun v => by rw [k2.activity, hact]⟩
    · have hne : ∀ i, i < s.len → i ≠ p → s.heap i ≠ var := by
        intro i hi hip he
        apply hip
        apply heap_inj hw (by rw [hlen]; exact hi) h1
        rw [h2, hheap]; exact he
      refine ⟨?_, ?_⟩
      · intro i hi hl hip
        rw [hlen] at hl
        rw [hheap, hact, hact, if_neg (hne i hl hip)]
        exact hmono _ _ (le_trans (ho i hi hl) (hup _))
      · intro c hc hl hcp hp0
        rw [hlen] at hl h1
        rw [hheap, hact, hact, if_neg (hne c hl (by omega)), if_neg (hne _ (by omega) (by omega))]
        apply hmono
        have a := ho c hc hl
        rw [hcp] at a
        exact le_trans a (ho p hp0 h1)
    · rw [k2.bump]; exact hbump

theorem decay_spec {ar : Arith α} {pos : α → Prop} (ok : ArithOk ar pos) {s : Vsids α} (h : WF s)
    (hb : pos s.bump) :
    WF (s.decay ar) ∧ (Ord s → Ord (s.decay ar)) ∧ pos (s.decay ar).bump ∧
    (∀ v, ((s.decay ar).position v).isSome = (s.position v).isSome) ∧
    ∃ f : α → α, (f = id ∨ f = ar.shrink) ∧ ∀ v, (s.decay ar).activity v = f (s.activity v) := by
  unfold decay
  simp only
  split
  · exact ⟨⟨h.heap, h.pos⟩, fun ho i hi hl => ok.mono _ _ (ho i hi hl), ok.shrink _ (ok.grow _ hb),
      fun _ => rfl, ar.shrink, .inr rfl, fun _ => rfl⟩
  · exact ⟨⟨h.heap, h.pos⟩, fun ho => ho, ok.grow _ hb, fun _ => rfl, id, .inl rfl, fun _ => rfl⟩

theorem reset_spec (ar : Arith α) {s s' : Vsids α} (h : WF s) {var : Nat}
    (hr : s.reset ar var = some s') :
    WF s' ∧ (Ord s → Ord s') ∧ s'.bump = s.bump ∧ s.position var = none ∧
    (∀ v, s'.position v = s.position v) ∧ s'.activity = put s.activity var ar.zero := by
  unfold reset at hr
  split at hr
  · rename_i hn
    have hn : s.position var = none := by simpa using hn
    cases hr
    refine ⟨⟨h.heap, h.pos⟩, ?_, rfl, hn, fun _ => rfl, rfl⟩
    have hni : ∀ i, i < s.len → s.heap i ≠ var := by
      intro i hi he
      have := (h.heap i hi).2.1
      rw [he, hn] at this
      cases this
    intro ho i hi hl
    simp only
    rw [put_other _ _ (hni i hl), put_other _ _ (hni _ (Nat.lt_of_le_of_lt (by omega) hl))]
    exact ho i hi hl
  · cases hr

theorem makeAvailable_spec {s : Vsids α} (h : WF s) {var : Nat} (hv : var < s.count) :
    WF (s.makeAvailable var) ∧ (Ord s → Ord (s.makeAvailable var)) ∧
    (s.makeAvailable var).bump = s.bump ∧ (s.makeAvailable var).activity = s.activity ∧
    ∀ v, ((s.makeAvailable var).position v).isSome = true ↔ v = var ∨ (s.position v).isSome = true := by
  unfold makeAvailable
  split
  · rename_i hn
    have hn : s.position var = none := by simpa using hn
    have hni : ∀ i, i < s.len → s.heap i ≠ var := by
      intro i hi he
      have := (h.heap i hi).2.1
      rw [he, hn] at this
      cases this
    have hw : WF ({ s with
        position := put s.position var (some s.len)
        heap := put s.heap s.len var
        len := s.len + 1 } : Vsids α) := by
      refine ⟨?_, ?_⟩
      · intro i hi
        simp only at hi ⊢
        by_cases h1 : i = s.len
        · subst h1; rw [put_same, put_same]; exact ⟨hv, rfl, id⟩
        · rw [put_other _ _ h1, put_other _ _ (hni i (by omega))]
          exact h.heap i (by omega)
      · intro v p _ hp
        simp only at hp ⊢
        by_cases h1 : v = var
        · subst h1
          rw [put_same] at hp
          cases hp
          exact ⟨by omega, put_same _ _ _⟩
        · rw [put_other _ _ h1] at hp
          obtain ⟨h2, h3⟩ := h.pos v p id hp
          exact ⟨by omega, by rw [put_other _ _ (by omega)]; exact h3⟩
    obtain ⟨k1, k2, k3⟩ := siftUp_spec (pos := s.len) hw (Nat.lt_succ_self _)
    refine ⟨k1, fun ho => k3 ?_, k2.bump, k2.activity, ?_⟩
    · refine ⟨?_, ?_⟩
      · intro i hi hl hne
        simp only at hl ⊢
        rw [put_other _ _ hne, put_other _ _ (by omega)]
        exact ho i hi (by omega)
      · intro c hc hl hcp hp0
        simp only at hl
        omega
    · intro v
      rw [k2.avail]
      simp only
      by_cases h1 : v = var
      · subst h1; rw [put_same]; simp
      · rw [put_other _ _ h1]; simp [h1]
  · rename_i hn
    refine ⟨h, id, rfl, rfl, fun v => ⟨fun hv => .inr hv, ?_⟩⟩
    rintro (rfl | hv)
    · simpa [Option.isSome_iff_ne_none] using hn
    · exact hv

/-- The part common to `make_unavailable` and `next`. -/
def takeOut (s : Vsids α) (position : Nat) : Vsids α :=
  let t := s.swapRemove position
  if t.len > position then
    { t with position := put t.position (t.heap position) (some position) }.siftDown position
  else t

theorem takeOut_spec {s : Vsids α} (h : WF s) {p : Nat} (hp : p < s.len) :
    WF ({ s.takeOut p with position := put (s.takeOut p).position (s.heap p) none } : Vsids α) ∧
    (Ord s → (p < s.len - 1 → 0 < p →
        s.activity (s.heap (s.len - 1)) ≤ s.activity (s.heap ((p - 1) / 2))) →
      Ord ({ s.takeOut p with position := put (s.takeOut p).position (s.heap p) none } : Vsids α)) ∧
    (s.takeOut p).bump = s.bump ∧ (s.takeOut p).activity = s.activity ∧
    ∀ v, (put (s.takeOut p).position (s.heap p) none v).isSome = true ↔
      v ≠ s.heap p ∧ (s.position v).isSome = true := by
  have fin : ∀ t : Vsids α, WFe (fun v => v = s.heap p) t →
      WF ({ t with position := put t.position (s.heap p) none } : Vsids α) := by
    intro t ht
    refine ⟨?_, ?_⟩
    · intro i hi
      obtain ⟨h1, h2, h3⟩ := ht.heap i hi
      exact ⟨h1, by simp only; rw [put_other _ _ h3]; exact h2, id⟩
    · intro v q _ hq
      simp only at hq
      by_cases h1 : v = s.heap p
      · subst h1; rw [put_same] at hq; cases hq
      · rw [put_other _ _ h1] at hq
        exact ht.pos v q h1 hq
  have av : ∀ t : Vsids α, (∀ v, v ≠ s.heap p → (t.position v).isSome = (s.position v).isSome) →
      ∀ v, (put t.position (s.heap p) none v).isSome = true ↔
        v ≠ s.heap p ∧ (s.position v).isSome = true := by
    intro t ht v
    by_cases h1 : v = s.heap p
    · subst h1; rw [put_same]; simp
    · rw [put_other _ _ h1, ht v h1]; simp [h1]
  unfold takeOut
  simp only
  split
  · rename_i hlt
    simp only [swapRemove, gt_iff_lt] at hlt
    have hmv : (s.swapRemove p).heap p = s.heap (s.len - 1) := put_same _ _ _
    have hne : s.heap (s.len - 1) ≠ s.heap p := fun he =>
      absurd (heap_inj h (by omega) hp he) (by omega)
    rw [hmv]
    have hw : WFe (fun v => v = s.heap p) ({ s.swapRemove p with
        position := put (s.swapRemove p).position (s.heap (s.len - 1)) (some p) } : Vsids α) := by
      refine ⟨?_, ?_⟩
      · intro i hi
        simp only [swapRemove] at hi ⊢
        by_cases h1 : i = p
        · subst h1
          rw [put_same, put_same]
          exact ⟨(h.heap (s.len - 1) (by omega)).1, rfl, hne⟩
        · rw [put_other _ _ h1, put_other _ _ (fun he =>
            absurd (heap_inj h (by omega) (by omega) he) (by omega))]
          obtain ⟨h2, h3, _⟩ := h.heap i (by omega)
          exact ⟨h2, h3, fun he => h1 (heap_inj h (by omega) hp he)⟩
      · intro v q hv hq
        simp only [swapRemove] at hq ⊢
        by_cases h1 : v = s.heap (s.len - 1)
        · subst h1
          rw [put_same] at hq
          cases hq
          exact ⟨hlt, put_same _ _ _⟩
        · rw [put_other _ _ h1] at hq
          obtain ⟨h2, h3⟩ := h.pos v q id hq
          have hqp : q ≠ p := by rintro rfl; exact hv h3.symm
          have hql : q ≠ s.len - 1 := by rintro rfl; exact h1 h3.symm
          exact ⟨by omega, by rw [put_other _ _ hqp]; exact h3⟩
    obtain ⟨k1, k2, k3⟩ := siftDown_spec (pos := p) hw (by simpa [swapRemove] using hlt)
    refine ⟨fin _ k1, ?_, k2.bump, k2.activity, av _ ?_⟩
    · intro ho hpar
      refine k3 ⟨?_, ?_⟩
      · intro i hi hl hne
        simp only [swapRemove] at hl ⊢
        rw [put_other _ (j := (i - 1) / 2) _ hne]
        by_cases h1 : i = p
        · subst h1; rw [put_same]; exact hpar hlt hi
        · rw [put_other _ _ h1]; exact ho i hi (by omega)
      · intro c hc hl hcp hp0
        simp only [swapRemove] at hl ⊢
        rw [put_other _ _ (by omega), put_other _ _ (by omega)]
        have a := ho c hc (by omega)
        rw [hcp] at a
        exact le_trans a (ho p hp0 hp)
    · intro v hv
      rw [k2.avail]
      simp only [swapRemove]
      by_cases h1 : v = s.heap (s.len - 1)
      · subst h1; rw [put_same, (h.heap (s.len - 1) (by omega)).2.1]; rfl
      · rw [put_other _ _ h1]
  · rename_i hlt
    simp only [swapRemove, gt_iff_lt, not_lt] at hlt
    have hpl : p = s.len - 1 := by omega
    refine ⟨fin _ ⟨?_, ?_⟩, ?_, rfl, rfl, av _ (fun _ _ => rfl)⟩
    · intro i hi
      simp only [swapRemove] at hi ⊢
      rw [put_other _ _ (by omega)]
      obtain ⟨h2, h3, _⟩ := h.heap i (by omega)
      exact ⟨h2, h3, fun he => absurd (heap_inj h (by omega) hp he) (by omega)⟩
    · intro v q hv hq
      simp only [swapRemove] at hq ⊢
      obtain ⟨h2, h3⟩ := h.pos v q id hq
      have hqp : q ≠ p := by rintro rfl; exact hv h3.symm
      exact ⟨by omega, by rw [put_other _ _ hqp]; exact h3⟩
    · intro ho _ i hi hl
      simp only [swapRemove] at hl ⊢
      rw [put_other _ _ (by omega), put_other _ _ (by omega)]
      exact ho i hi (by omega)

theorem ord_root {s : Vsids α} (ho : Ord s) (i : Nat) (hi : i < s.len) :
    s.activity (s.heap i) ≤ s.activity (s.heap 0) := by
  induction i using Nat.strongRecOn with
  | _ i ih =>
    rcases Nat.eq_zero_or_pos i with rfl | h0
    · exact le_refl _
    · exact le_trans (ho i h0 hi) (ih ((i - 1) / 2) (by omega) (by omega))

theorem next_eq {s : Vsids α} (h : s.len ≠ 0) : s.next = (some (s.heap 0),
    { s.takeOut 0 with position := put (s.takeOut 0).position (s.heap 0) none }) := by
  have hc : ((s.swapRemove 0).len ≠ 0) = ((s.swapRemove 0).len > 0) :=
    propext Nat.pos_iff_ne_zero.symm
  simp only [next, takeOut, if_neg h, hc]

theorem makeUnavailable_eq {s : Vsids α} (h : WF s) {var p : Nat} (hp : s.position var = some p) :
    s.makeUnavailable var =
      { s.takeOut p with position := put (s.takeOut p).position (s.heap p) none } := by
  have := (h.pos var p id hp).2
  unfold makeUnavailable takeOut
  rw [hp]
  simp only [this]

end Varisat.Vsids
