import Verif.Proof.Vsids
/-!
# The decision heap refines the queue of the specification
-/
namespace Varisat
namespace Vsids
open Queue

variable {α : Type} [LinearOrder α]

/-- The abstract state a heap stands for. -/
def toQueue (s : Vsids α) : Queue α :=
  { avail := fun v => (s.position v).isSome
    activity := s.activity
    bump := s.bump
    count := s.count }

theorem queue_ext {p q : Queue α} (h1 : ∀ v, p.avail v = q.avail v)
    (h2 : ∀ v, p.activity v = q.activity v) (h3 : p.bump = q.bump) (h4 : p.count = q.count) :
    p = q := by
  obtain ⟨a, b, c, d⟩ := p
  obtain ⟨a', b', c', d'⟩ := q
  cases (funext h1 : a = a'); cases (funext h2 : b = b'); cases h3; cases h4; rfl

theorem siftUp_count (s : Vsids α) (h : WF s) {p : Nat} (hp : p < s.len) :
    (s.siftUp p).count = s.count := (siftUp_spec h hp).2.1.count

/-- Everything about one call. -/
theorem step_ok {ar : Arith α} {pos : α → Prop} (ok : ArithOk ar pos) {s : Vsids α} (h : WF s)
    (hb : pos s.bump) {o : Op} {r : Option Nat} {s' : Vsids α} (ho : s.op ar o = some (r, s')) :
    WF s' ∧ pos s'.bump ∧ toQueue s' = (toQueue s).step ar o r ∧ Result (toQueue s) o r ∧
    (Ord s → Best (toQueue s) o r) ∧ (Ord s → Tame (toQueue s) o → Ord s') := by
  have hnot : ∀ {o : Op} {r : Option Nat}, o ≠ .next → r = none →
      Result (toQueue s) o r ∧ (Ord s → Best (toQueue s) o r) := by
    intro o r h1 h2
    exact ⟨by unfold Result; rw [if_neg h1]; exact h2, fun _ hn => absurd hn h1⟩
  have outside : ∀ v, s.count ≤ v → s.position v = none := by
    intro v hv
    cases hp : s.position v with
    | none => rfl
    | some p => have := pos_range h hp; omega
  unfold op at ho
  split at ho
  · cases ho
  rename_i hv
  cases o with
  | setVarCount n =>
    simp only at ho
    split at ho
    · cases ho
    · rename_i hn
      cases ho
      obtain ⟨k1, k2, k3⟩ := setVarCount_spec ar h (Nat.le_of_not_lt hn)
      refine ⟨k1, hb, queue_ext k3 (fun _ => rfl) rfl rfl, (hnot (by simp) rfl).1,
        (hnot (by simp) rfl).2, fun h _ => k2 h⟩
  | bump v =>
    cases ho
    obtain ⟨k1, k2, k3, k4, k5, _⟩ := bumpVar_spec ok h hb v
    refine ⟨k1, k3, ?_, (hnot (by simp) rfl).1, (hnot (by simp) rfl).2, fun h _ => k2 h⟩
    have hput : ∀ w, put s.activity v (ar.add (s.activity v) s.bump) w =
        if w = v then ar.add (s.activity v) s.bump else s.activity w := fun _ => rfl
    -- the state before sifting
    have key : ∀ t : Vsids α, WF t → t.position = s.position → t.count = s.count →
        toQueue (match t.position v with | some p => t.siftUp p | none => t) = toQueue t := by
      intro t ht _ _
      cases hp : t.position v with
      | none => rfl
      | some p =>
        have := (siftUp_spec ht (ht.pos v p id hp).1).2.1
        exact queue_ext this.avail (fun w => by simp only [toQueue, this.activity]) this.bump
          this.count
    by_cases hbig : ar.big (ar.add (s.activity v) s.bump) = true
    · have e : s.bumpVar ar v = (match (({ s with
          activity := put s.activity v (ar.add (s.activity v) s.bump) } : Vsids α).rescale
            ar).position v with
          | some p => (({ s with
              activity := put s.activity v (ar.add (s.activity v) s.bump) } : Vsids α).rescale
              ar).siftUp p
          | none => ({ s with
              activity := put s.activity v (ar.add (s.activity v) s.bump) } : Vsids α).rescale
              ar) := by
        simp only [bumpVar, if_pos hbig]; rfl
      have hw : WF (({ s with
          activity := put s.activity v (ar.add (s.activity v) s.bump) } : Vsids α).rescale ar) :=
        ⟨h.heap, h.pos⟩
      refine (congrArg toQueue e).trans ((key _ hw rfl rfl).trans ?_)
      simp only [Queue.step]
      rw [show ar.big (ar.add ((toQueue s).activity v) (toQueue s).bump) = true from hbig,
        if_pos rfl]
      rfl
    · have e : s.bumpVar ar v = (match ({ s with
          activity := put s.activity v (ar.add (s.activity v) s.bump) } : Vsids α).position v with
          | some p => ({ s with
              activity := put s.activity v (ar.add (s.activity v) s.bump) } : Vsids α).siftUp p
          | none => { s with
              activity := put s.activity v (ar.add (s.activity v) s.bump) }) := by
        simp only [bumpVar, hbig]; rfl
      have hw : WF ({ s with
          activity := put s.activity v (ar.add (s.activity v) s.bump) } : Vsids α) :=
        ⟨h.heap, h.pos⟩
      refine (congrArg toQueue e).trans ((key _ hw rfl rfl).trans ?_)
      simp only [Queue.step]
      rw [show ar.big (ar.add ((toQueue s).activity v) (toQueue s).bump) = false from
        Bool.eq_false_iff.2 hbig, if_neg (by simp)]
      rfl
  | decay =>
    cases ho
    obtain ⟨k1, k2, k3, k4, _⟩ := decay_spec ok h hb
    refine ⟨k1, k3, ?_, (hnot (by simp) rfl).1, (hnot (by simp) rfl).2, fun h _ => k2 h⟩
    simp only [decay, Queue.step]
    by_cases hbig : ar.big (ar.grow s.bump) = true
    · rw [if_pos hbig, if_pos (show ar.big (ar.grow (toQueue s).bump) = true from hbig)]
      rfl
    · rw [if_neg hbig, if_neg (show ¬ ar.big (ar.grow (toQueue s).bump) = true from hbig)]
      rfl
  | reset v =>
    simp only [Option.map_eq_some_iff, Prod.mk.injEq] at ho
    obtain ⟨t, ht, rfl, rfl⟩ := ho
    obtain ⟨k1, k2, k3, k4, k5, k6⟩ := reset_spec ar h ht
    have hc : t.count = s.count := by
      unfold reset at ht
      split at ht
      · cases ht; rfl
      · cases ht
    refine ⟨k1, by rw [k3]; exact hb, ?_, (hnot (by simp) rfl).1, (hnot (by simp) rfl).2,
      fun h _ => k2 h⟩
    exact queue_ext (fun w => by simp only [toQueue, k5, Queue.step])
      (fun w => by simp only [toQueue, k6, Queue.step, put]) k3 hc
  | makeUnavailable v =>
    cases ho
    cases hp : s.position v with
    | none =>
      have e : s.makeUnavailable v = s := by unfold makeUnavailable; rw [hp]
      rw [e]
      refine ⟨h, hb, ?_, (hnot (by simp) rfl).1, (hnot (by simp) rfl).2, fun h _ => h⟩
      refine queue_ext (fun w => ?_) (fun _ => rfl) rfl rfl
      simp only [toQueue, Queue.step]
      by_cases hw : w = v
      · subst hw; simp [hp]
      · simp [hw]
    | some p =>
      obtain ⟨h1, h2⟩ := h.pos v p id hp
      rw [makeUnavailable_eq h hp]
      obtain ⟨k1, k2, k3, k4, k5⟩ := takeOut_spec h h1
      have hc : (s.takeOut p).count = s.count := by
        unfold takeOut siftDown
        simp only
        split
        · rename_i hlt
          have : ∀ fuel (t : Vsids α) a b, (t.siftDownLoop fuel a b).count = t.count := by
            intro fuel
            induction fuel with
            | zero => intros; rfl
            | succ n ih =>
              intro t a b
              simp only [siftDownLoop]
              split
              · rfl
              · rw [ih]; rfl
          rw [this]; rfl
        · rfl
      refine ⟨k1, by rw [k3]; exact hb, ?_, (hnot (by simp) rfl).1, (hnot (by simp) rfl).2, ?_⟩
      · refine queue_ext (fun w => ?_) (fun w => by simp only [toQueue, k4, Queue.step]) k3 hc
        simp only [toQueue, Queue.step]
        rw [Bool.eq_iff_iff, k5, h2]
        simp [and_comm]
      · intro ho ht
        refine k2 ho fun _ h0 => ?_
        rcases ht with ht | ht
        · simp [toQueue, hp] at ht
        · have hl : s.len - 1 < s.len := by omega
          have := ht (s.heap (s.len - 1)) (by
            simp only [toQueue]; rw [(h.heap _ hl).2.1]; rfl)
          refine le_trans this ?_
          have := ho p h0 h1
          rwa [h2] at this
  | makeAvailable v =>
    cases ho
    have hv : v < s.count := by simpa [Op.var?] using hv
    obtain ⟨k1, k2, k3, k4, k5⟩ := makeAvailable_spec h hv
    have hc : (s.makeAvailable v).count = s.count := by
      have : ∀ p (t : Vsids α) a, (t.siftUpLoop a p).count = t.count := by
        intro p
        induction p using Nat.strongRecOn with
        | _ p ih =>
          intro t a
          rw [siftUpLoop]
          split
          · rfl
          · simp only
            split
            · rfl
            · rw [ih _ (by omega)]; rfl
      unfold makeAvailable siftUp
      split
      · simp only; rw [this]
      · rfl
    refine ⟨k1, by rw [k3]; exact hb, ?_, (hnot (by simp) rfl).1, (hnot (by simp) rfl).2,
      fun h _ => k2 h⟩
    refine queue_ext (fun w => ?_) (fun w => by simp only [toQueue, k4, Queue.step]) k3 hc
    simp only [toQueue, Queue.step]
    rw [Bool.eq_iff_iff, k5]
    simp [or_comm]
  | next =>
    simp only [Option.some.injEq] at ho
    by_cases hl : s.len = 0
    · have e : s.next = (none, s) := by unfold Vsids.next; rw [if_pos hl]
      rw [e] at ho
      cases ho
      have hno : ∀ v, (s.position v).isSome = false := by
        intro v
        cases hp : s.position v with
        | none => rfl
        | some p => have := (h.pos v p id hp).1; omega
      refine ⟨h, hb, ?_, ?_, ?_, fun h _ => h⟩
      · refine queue_ext (fun w => ?_) (fun _ => rfl) rfl rfl
        simp [toQueue, Queue.step, hno]
      · unfold Result; rw [if_pos rfl]; exact hno
      · intro _ _ v hv; cases hv
    · rw [next_eq hl] at ho
      cases ho
      obtain ⟨k1, k2, k3, k4, k5⟩ := takeOut_spec h (p := 0) (by omega)
      have hc : (s.takeOut 0).count = s.count := by
        unfold takeOut siftDown
        simp only
        split
        · rename_i hlt
          have : ∀ fuel (t : Vsids α) a b, (t.siftDownLoop fuel a b).count = t.count := by
            intro fuel
            induction fuel with
            | zero => intros; rfl
            | succ n ih =>
              intro t a b
              simp only [siftDownLoop]
              split
              · rfl
              · rw [ih]; rfl
          rw [this]; rfl
        · rfl
      refine ⟨k1, by rw [k3]; exact hb, ?_, ?_, ?_, ?_⟩
      · refine queue_ext (fun w => ?_) (fun w => by simp only [toQueue, k4, Queue.step]) k3 hc
        simp only [toQueue, Queue.step]
        rw [Bool.eq_iff_iff, k5]
        simp [and_comm]
      · unfold Result; rw [if_pos rfl]
        simp only [toQueue]
        rw [(h.heap 0 (by omega)).2.1]; rfl
      · rintro ho _ v hv w hw
        cases hv
        cases hp : s.position w with
        | none => simp [toQueue, hp] at hw
        | some p =>
          obtain ⟨h1, h2⟩ := h.pos w p id hp
          have := ord_root ho p h1
          rwa [h2] at this
      · intro ho _
        exact k2 ho fun _ h0 => absurd h0 (Nat.lt_irrefl _)

theorem runs_ok {ar : Arith α} {pos : α → Prop} (ok : ArithOk ar pos) (ops : List Op) :
    ∀ (s : Vsids α) rs s', WF s → pos s.bump → s.runs ar ops = some (rs, s') →
      WF s' ∧ pos s'.bump ∧ toQueue s' = (toQueue s).after ar ops rs ∧
      All ar Result (toQueue s) ops rs ∧
      (Ord s → All ar (fun q o _ => q.Tame o) (toQueue s) ops rs →
        All ar Best (toQueue s) ops rs) := by
  induction ops with
  | nil =>
    intro s rs s' h hb hr
    cases hr
    exact ⟨h, hb, rfl, trivial, fun _ _ => trivial⟩
  | cons o ops ih =>
    intro s rs s' h hb hr
    simp only [runs, Option.bind_eq_bind, Option.bind_eq_some_iff] at hr
    obtain ⟨⟨r, t⟩, h1, ⟨rs', t'⟩, h2, h3⟩ := hr
    cases h3
    obtain ⟨k1, k2, k3, k4, k5, k6⟩ := step_ok ok h hb h1
    obtain ⟨j1, j2, j3, j4, j5⟩ := ih t rs' t' k1 k2 h2
    rw [k3] at j3 j4 j5
    exact ⟨j1, j2, j3, ⟨k4, j4⟩, fun ho ht => ⟨k5 ho, j5 (k6 ho ht.1) ht.2⟩⟩

end Vsids
end Varisat
