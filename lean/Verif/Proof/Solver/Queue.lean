import Verif.Proof.Vsids
import Verif.Model.Lit
/-!
# The decision queue as a set, for any arithmetic

Only the facts the solver's correctness depends on: which variables are available.
-/
namespace Varisat.Vsids

variable {α : Type} [LinearOrder α]

/-- The variable is in the queue. -/
def Avail (s : Vsids α) (v : Nat) : Prop := (s.position v).isSome = true

theorem siftUpLoop_count (pos : Nat) : ∀ (s : Vsids α) (var : Nat),
    (s.siftUpLoop var pos).count = s.count ∧ (s.siftUpLoop var pos).len = s.len := by
  induction pos using Nat.strongRecOn with
  | _ pos ih =>
    intro s var
    rw [siftUpLoop]
    split
    · exact ⟨rfl, rfl⟩
    · simp only
      split
      · exact ⟨rfl, rfl⟩
      · exact ih _ (by omega) _ _

theorem siftDownLoop_count (fuel : Nat) : ∀ (s : Vsids α) (var pos : Nat),
    (siftDownLoop fuel s var pos).count = s.count ∧ (siftDownLoop fuel s var pos).len = s.len := by
  induction fuel with
  | zero => intro s var pos; exact ⟨rfl, rfl⟩
  | succ n ih =>
    intro s var pos
    rw [siftDownLoop]
    split
    · exact ⟨rfl, rfl⟩
    · exact ih _ _ _

theorem bumpVar_wf (ar : Arith α) {s : Vsids α} (h : WF s) (var : Nat) :
    WF (s.bumpVar ar var) ∧ (s.bumpVar ar var).count = s.count ∧
    ∀ v, (s.bumpVar ar var).Avail v ↔ s.Avail v := by
  have key : ∀ s1 : Vsids α, s1.heap = s.heap → s1.len = s.len → s1.position = s.position →
      s1.count = s.count →
      WF (match s1.position var with | some p => s1.siftUp p | none => s1) ∧
      (match s1.position var with | some p => s1.siftUp p | none => s1).count = s.count ∧
      ∀ v, (match s1.position var with | some p => s1.siftUp p | none => s1).Avail v ↔ s.Avail v := by
    intro s1 hheap hlen hpos hcount
    have hw : WF s1 := ⟨by rw [hheap, hlen, hpos, hcount]; exact h.heap,
      by rw [hheap, hlen, hpos]; exact h.pos⟩
    cases hp : s1.position var with
    | none => exact ⟨hw, hcount, fun v => by unfold Avail; rw [hpos]⟩
    | some p =>
      obtain ⟨k1, k2, _⟩ := siftUp_spec hw (hw.pos var p id hp).1
      exact ⟨k1, k2.count.trans hcount, fun v => by unfold Avail; rw [k2.avail, hpos]⟩
  by_cases hbig : ar.big (ar.add (s.activity var) s.bump) = true
  · have : s.bumpVar ar var = (match (({ s with activity := put s.activity var (ar.add (s.activity var) s.bump) } :
          Vsids α).rescale ar).position var with
        | some p => (({ s with activity := put s.activity var (ar.add (s.activity var) s.bump) } :
          Vsids α).rescale ar).siftUp p
        | none => (({ s with activity := put s.activity var (ar.add (s.activity var) s.bump) } :
          Vsids α).rescale ar)) := by
      simp only [bumpVar, if_pos hbig]; rfl
    rw [this]
    exact key _ rfl rfl rfl rfl
  · have : s.bumpVar ar var = (match ({ s with activity := put s.activity var (ar.add (s.activity var) s.bump) } :
          Vsids α).position var with
        | some p => ({ s with activity := put s.activity var (ar.add (s.activity var) s.bump) } :
          Vsids α).siftUp p
        | none => ({ s with activity := put s.activity var (ar.add (s.activity var) s.bump) } :
          Vsids α)) := by
      simp only [bumpVar, hbig]; rfl
    rw [this]
    exact key _ rfl rfl rfl rfl

theorem decay_wf (ar : Arith α) {s : Vsids α} (h : WF s) :
    WF (s.decay ar) ∧ (s.decay ar).count = s.count ∧ ∀ v, (s.decay ar).Avail v ↔ s.Avail v := by
  unfold decay
  simp only
  split
  · exact ⟨⟨h.heap, h.pos⟩, rfl, fun _ => Iff.rfl⟩
  · exact ⟨⟨h.heap, h.pos⟩, rfl, fun _ => Iff.rfl⟩

theorem makeAvailable_wf {s : Vsids α} (h : WF s) {var : Nat} (hv : var < s.count) :
    WF (s.makeAvailable var) ∧ (s.makeAvailable var).count = s.count ∧
    ∀ v, (s.makeAvailable var).Avail v ↔ v = var ∨ s.Avail v := by
  obtain ⟨h1, _, _, _, h2⟩ := makeAvailable_spec h hv
  refine ⟨h1, ?_, h2⟩
  unfold makeAvailable
  split
  · exact (siftUpLoop_count _ _ _).1
  · rfl

theorem takeOut_count {s : Vsids α} (p : Nat) :
    (s.takeOut p).count = s.count ∧ (s.takeOut p).len = s.len - 1 := by
  unfold takeOut
  simp only
  split
  · exact siftDownLoop_count _ _ _ _
  · exact ⟨rfl, rfl⟩

theorem makeUnavailable_wf {s : Vsids α} (h : WF s) (var : Nat) :
    WF (s.makeUnavailable var) ∧ (s.makeUnavailable var).count = s.count ∧
    ∀ v, (s.makeUnavailable var).Avail v ↔ v ≠ var ∧ s.Avail v := by
  cases hp : s.position var with
  | none =>
    have : s.makeUnavailable var = s := by unfold makeUnavailable; rw [hp]
    rw [this]
    refine ⟨h, rfl, fun v => ⟨fun hv => ⟨?_, hv⟩, fun hv => hv.2⟩⟩
    rintro rfl
    unfold Avail at hv; rw [hp] at hv; simp at hv
  | some p =>
    obtain ⟨hl, hv⟩ := h.pos var p id hp
    rw [makeUnavailable_eq h hp]
    obtain ⟨h1, _, _, _, h2⟩ := takeOut_spec h hl
    refine ⟨h1, (takeOut_count p).1, ?_⟩
    intro v
    rw [← hv]
    exact h2 v

theorem next_wf {s : Vsids α} (h : WF s) :
    WF s.next.2 ∧ s.next.2.count = s.count ∧
    match s.next.1 with
    | none => (∀ v, ¬ s.Avail v) ∧ s.next.2 = s
    | some x => s.Avail x ∧ s.next.2.len + 1 = s.len ∧ ∀ v, s.next.2.Avail v ↔ v ≠ x ∧ s.Avail v := by
  by_cases h0 : s.len = 0
  · have : s.next = (none, s) := by unfold next; rw [if_pos h0]
    rw [this]
    refine ⟨h, rfl, ?_, rfl⟩
    intro v hv
    unfold Avail at hv
    obtain ⟨p, hp⟩ := Option.isSome_iff_exists.1 hv
    have := (h.pos v p id hp).1
    omega
  · rw [next_eq h0]
    obtain ⟨h1, _, _, _, h2⟩ := takeOut_spec h (p := 0) (by omega)
    refine ⟨h1, (takeOut_count 0).1, ?_, ?_, h2⟩
    · unfold Avail; rw [(h.heap 0 (by omega)).2.1]; rfl
    · have := (takeOut_count (s := s) 0).2
      show (s.takeOut 0).len + 1 = s.len
      omega

theorem avail_lt {s : Vsids α} (h : WF s) {v : Nat} (hv : s.Avail v) : v < s.count := by
  unfold Avail at hv
  obtain ⟨p, hp⟩ := Option.isSome_iff_exists.1 hv
  exact pos_range h hp

theorem makeAvailable_foldl {s : Vsids α} (h : WF s) : ∀ (ls : List Lit), (∀ l ∈ ls, l.var < s.count) →
    WF (ls.foldl (fun v l => v.makeAvailable l.var) s) ∧
    (ls.foldl (fun v l => v.makeAvailable l.var) s).count = s.count ∧
    ∀ v, (ls.foldl (fun v l => v.makeAvailable l.var) s).Avail v ↔ (∃ l ∈ ls, l.var = v) ∨ s.Avail v := by
  intro ls
  induction ls generalizing s with
  | nil => intro _; exact ⟨h, rfl, fun v => by simp⟩
  | cons x xs ih =>
    intro hls
    obtain ⟨h1, h2, h3⟩ := makeAvailable_wf h (hls x (by simp))
    obtain ⟨h4, h5, h6⟩ := ih h1 (fun l hl => by rw [h2]; exact hls l (by simp [hl]))
    refine ⟨h4, h5.trans h2, fun v => ?_⟩
    rw [List.foldl_cons, h6, h3]
    constructor
    · rintro (⟨l, hl, hv⟩ | rfl | hv)
      · exact .inl ⟨l, by simp [hl], hv⟩
      · exact .inl ⟨x, by simp, rfl⟩
      · exact .inr hv
    · rintro (⟨l, hl, hv⟩ | hv)
      · rcases List.mem_cons.1 hl with rfl | hl
        · exact .inr (.inl hv.symm)
        · exact .inl ⟨l, hl, hv⟩
      · exact .inr (.inr hv)

end Varisat.Vsids
