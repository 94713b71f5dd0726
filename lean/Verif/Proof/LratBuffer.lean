import Verif.Model.LratBuffer
/-!
# The buffer of the LRAT writer

What was taken by the target followed by what is in the buffer is what the writer of `Model/Lrat` has produced, as long as no use
of the writer fails.
-/
namespace Varisat.Lrat.Io
open Checker

variable {t : Target} {fl : Prop}

theorem drain_spec (bs : Bytes) (k : Nat) (d : Bytes) {ok : Bool} {rest : Bytes} {k' : Nat} {d' : Bytes} (h : drain t bs k d = (ok, rest, k', d')) :
    d' ++ rest = d ++ bs ∧ rest.length ≤ bs.length ∧ k ≤ k' ∧ (ok = true → rest = [] ∧ ∀ j, k ≤ j → j < k' → ¬ t.FailsAt j) ∧
      (ok = false → k < k' ∧ t.FailsAt (k' - 1)) ∧ (k' = k → d' = d) := by
  induction bs, k, d using drain.induct (t := t) with
  | case1 k d =>
    rw [drain] at h
    cases h
    exact ⟨rfl, Nat.le_refl _, Nat.le_refl _, fun _ => ⟨rfl, by omega⟩, nofun, fun _ => rfl⟩
  | case2 b bs k d n hk ih =>
    rw [drain, hk] at h
    obtain ⟨h1, h2, h3, h4, h5, h6⟩ := ih h
    refine ⟨?_, ?_, by omega, fun ho => ⟨(h4 ho).1, fun j hj hj' => ?_⟩, fun ho => ?_, fun he => by omega⟩
    · rw [h1]; simp
    · simp only [List.length_drop, List.length_cons] at h2 ⊢; omega
    · by_cases hjk : j = k
      · subst hjk; unfold Target.FailsAt; rw [hk]; simp
      · exact (h4 ho).2 j (by omega) hj'
    · have := h5 ho; exact ⟨by omega, this.2⟩
  | case3 b bs k d hk =>
    have hb : t.FailsAt k := by
      unfold Target.FailsAt
      cases e : t.write k with
      | none => exact .inl rfl
      | some n =>
        cases n with
        | zero => exact .inr rfl
        | succ n => exact absurd e (hk n)
    have : drain t (b :: bs) k d = (false, b :: bs, k + 1, d) := by
      rw [drain]
      rcases hb with e | e <;> rw [e]
    rw [this] at h
    cases h
    exact ⟨rfl, Nat.le_refl _, by omega, nofun, fun _ => ⟨by omega, hb⟩, by omega⟩

/-- The writers agree. -/
structure Rel (f : F) (w : W) : Prop where
  binary : f.binary = w.binary
  target : w.target = f.data ++ f.buf
  cap : f.buf.length ≤ capacity
  zero : f.calls = 0 → f.data = []
  openE : f.deleteOpen = w.deleteOpen
  last : f.lastAddedId = w.lastAddedId
  dels : f.bufferedDeletes = w.bufferedDeletes

/-- Calls that do not fail. -/
def Calls (t : Target) (f f' : F) : Prop := f.calls ≤ f'.calls ∧ ∀ k, f.calls ≤ k → k < f'.calls → ¬ t.FailsAt k

theorem Calls.refl (f : F) : Calls t f f := ⟨Nat.le_refl _, by omega⟩

theorem Calls.trans {f g h : F} (a : Calls t f g) (b : Calls t g h) : Calls t f h :=
  ⟨Nat.le_trans a.1 b.1, fun k h1 h2 => if h : k < g.calls then a.2 k h1 h else b.2 k (by omega) h2⟩

/-- What a failing action leaves. -/
structure Failed (t : Target) (fl : Prop) (f f' : F) (w : W) : Prop where
  pre : f'.data ++ f'.buf <+: w.target
  cap : f'.buf.length ≤ capacity
  le : f.calls ≤ f'.calls
  bad : (f.calls < f'.calls ∧ t.FailsAt (f'.calls - 1)) ∨ fl ∧ t.flush f'.calls = false

/-- An action that makes the second writer `w`, or fails. Without flushing (`fl`), the target is not used before there are bytes to
fill the buffer. -/
def At (t : Target) (fl : Prop) (m : M Unit) (f : F) (w : W) : Prop :=
  (∃ f', m f = .ok () f' ∧ Rel f' w ∧ Calls t f f' ∧ (fl ∨ f'.calls = f.calls ∨ capacity ≤ w.target.length)) ∨
    ∃ f', m f = .error () f' ∧ Failed t fl f f' w ∧ (fl ∨ capacity ≤ w.target.length)

theorem At.bind {m m' : M Unit} {f : F} {w w' : W} (h : At t fl m f w) (hw : w.target <+: w'.target) (h' : ∀ f', Rel f' w → At t fl m' f' w') :
    At t fl (m >>= fun _ => m') f w' := by
  have e : (m >>= fun _ => m') f = match m f with | .ok _ f => m' f | .error e f => .error e f := by
    show EStateM.bind m _ f = _
    unfold EStateM.bind
    cases m f <;> rfl
  have hle := hw.length_le
  rcases h with ⟨f1, h1, h2, h3, h4⟩ | ⟨f1, h1, h2, h4⟩
  · rcases h' f1 h2 with ⟨f2, k1, k2, k3, k4⟩ | ⟨f2, k1, k2, k4⟩
    · exact .inl ⟨f2, by rw [e, h1]; exact k1, k2, h3.trans k3, by
        rcases h4 with h4 | h4 | h4
        · exact .inl h4
        · rw [← h4]; exact k4
        · exact .inr (.inr (Nat.le_trans h4 hle))⟩
    · refine .inr ⟨f2, by rw [e, h1]; exact k1, ⟨k2.pre, k2.cap, Nat.le_trans h3.1 k2.le, k2.bad.imp_left fun b => ⟨Nat.lt_of_le_of_lt h3.1 b.1, b.2⟩⟩, k4⟩
  · exact .inr ⟨f1, by rw [e, h1], ⟨h2.pre.trans hw, h2.cap, h2.le, h2.bad⟩, h4.imp_right fun h => Nat.le_trans h hle⟩

theorem At.get {m : F → M Unit} {f : F} {w : W} (h : At t fl (m f) f w) : At t fl (do let f ← MonadState.get; m f) f w := h

theorem At.pure {f : F} {w : W} (h : Rel f w) : At t fl (Pure.pure ()) f w := .inl ⟨f, rfl, h, .refl _, .inr (.inl rfl)⟩

theorem At.modify {g : F → F} {f : F} {w : W} (h : Rel (g f) w) (hc : (g f).calls = f.calls) : At t fl (modify g) f w :=
  .inl ⟨g f, rfl, h, ⟨Nat.le_of_eq hc.symm, by omega⟩, .inr (.inl hc)⟩

theorem flushBuf_at {f : F} {w : W} (h : Rel f w) :
    (∃ f', flushBuf t f = .ok () f' ∧ Rel f' w ∧ Calls t f f' ∧ f'.buf = []) ∨ ∃ f', flushBuf t f = .error () f' ∧ Failed t fl f f' w := by
  unfold flushBuf
  rcases hd : drain t f.buf f.calls f.data with ⟨ok, rest, k', d'⟩
  obtain ⟨h1, h2, h3, h4, h5, h6⟩ := drain_spec _ _ _ hd
  cases ok with
  | true =>
    obtain ⟨rfl, hb⟩ := h4 rfl
    refine .inl ⟨_, rfl, ⟨h.binary, by rw [h.target]; exact h1.symm, by simp, fun hz => ?_, h.openE, h.last, h.dels⟩, ⟨h3, hb⟩, rfl⟩
    simp only at hz ⊢
    rw [h6 (by omega)]
    exact h.zero (by omega)
  | false =>
    refine .inr ⟨_, rfl, ?_, ?_, h3, .inl (h5 rfl)⟩
    · simp only; rw [h1, h.target]; exact List.prefix_refl _
    · exact Nat.le_trans h2 h.cap

theorem W.put_prefix (w : W) (bs : Bytes) : w.target <+: (w.put bs).target := List.prefix_append _ _

theorem putRest_at {f : F} {w : W} {bs : Bytes} (h : Rel f w) (hf : f.buf = [] ∨ bs.length ≤ capacity - f.buf.length) :
    At t fl (putRest t bs) f (w.put bs) := by
  have hc := h.cap
  unfold putRest
  split
  next hb =>
    have hlen : capacity ≤ (w.put bs).target.length := by unfold W.put; simp; omega
    have hbuf : f.buf = [] := by
      rcases hf with hf | hf
      · exact hf
      · unfold capacity at *; exact List.length_eq_zero_iff.1 (by omega)
    unfold At writeDirect
    rcases hd : drain t bs f.calls f.data with ⟨ok, rest, k', d'⟩
    obtain ⟨h1, h2, h3, h4, h5, h6⟩ := drain_spec _ _ _ hd
    cases ok with
    | true =>
      obtain ⟨rfl, hb⟩ := h4 rfl
      refine .inl ⟨_, rfl, ⟨h.binary, ?_, hc, fun hz => ?_, h.openE, h.last, h.dels⟩, ⟨h3, hb⟩, .inr (.inr hlen)⟩
      rotate_left
      · simp only at hz ⊢
        rw [h6 (by omega)]
        exact h.zero (by omega)
      simp only [W.put, h.target, hbuf, List.append_nil] at h1 ⊢
      exact h1.symm
    | false =>
      refine .inr ⟨_, rfl, ⟨?_, hc, h3, .inl (h5 rfl)⟩, .inr hlen⟩
      simp only [W.put, h.target, hbuf, List.append_nil]
      rw [← h1]
      exact List.prefix_append _ _
  next hb =>
    refine At.modify ⟨h.binary, by unfold W.put; simp [h.target], ?_, h.zero, h.openE, h.last, h.dels⟩ rfl
    simp only [List.length_append]
    rcases hf with hf | hf
    · rw [hf, List.length_nil]; omega
    · omega

theorem put_at {f : F} {w : W} (bs : Bytes) (h : Rel f w) : At t fl (put t bs) f (w.put bs) := by
  unfold put
  refine At.get ?_
  have hc := h.cap
  split
  next hl => exact .inl ⟨_, rfl, ⟨h.binary, by unfold W.put; simp [h.target], by simp; omega, h.zero, h.openE, h.last, h.dels⟩, .refl _, .inr (.inl rfl)⟩
  next hl =>
    split
    next hl2 =>
      have hlen : capacity ≤ (w.put bs).target.length := by unfold W.put; simp [h.target]; omega
      rcases flushBuf_at (t := t) h with ⟨f', k1, k2, k3, k4⟩ | ⟨f', k1, k2⟩
      · have e : (do flushBuf t; putRest t bs) f = putRest t bs f' := by
          show EStateM.bind _ _ f = _
          unfold EStateM.bind
          rw [k1]
        unfold At
        rw [e]
        rcases putRest_at (t := t) (fl := fl) (bs := bs) k2 (.inl k4) with ⟨f'', m1, m2, m3, _⟩ | ⟨f'', m1, m2, _⟩
        · exact .inl ⟨f'', m1, m2, k3.trans m3, .inr (.inr hlen)⟩
        · exact .inr ⟨f'', m1, ⟨m2.pre, m2.cap, Nat.le_trans k3.1 m2.le, m2.bad.imp_left fun b => ⟨Nat.lt_of_le_of_lt k3.1 b.1, b.2⟩⟩, .inr hlen⟩
      · have e : (do flushBuf t; putRest t bs) f = .error () f' := by
          show EStateM.bind _ _ f = _
          unfold EStateM.bind
          rw [k1]
        unfold At
        rw [e]
        exact .inr ⟨f', rfl, ⟨k2.pre.trans (W.put_prefix _ _), k2.cap, k2.le, k2.bad⟩, .inr hlen⟩
    next hl2 => exact putRest_at h (.inr (by omega))

/-- Actions one after the other. -/
theorem At.put {m : M Unit} {f : F} {w w' : W} (bs : Bytes) (h : Rel f w) (hw : (w.put bs).target <+: w'.target)
    (h' : ∀ f', Rel f' (w.put bs) → At t fl m f' w') : At t fl (Io.put t bs >>= fun _ => m) f w' := (put_at bs h).bind hw h'

theorem put_put (w : W) (a b : Bytes) : (w.put a).put b = w.put (a ++ b) := by simp [W.put]

theorem putBytes_at {f : F} {w : W} (bs : Bytes) (h : Rel f w) : At t fl (putBytes t bs) f (w.put bs) := by
  induction bs generalizing f w with
  | nil =>
    refine At.pure ?_
    have : w.put [] = w := by simp [W.put]
    rwa [this]
  | cons b bs ih =>
    refine At.put (w := w) [b] h ?_ fun f' h' => ?_
    · rw [show b :: bs = [b] ++ bs from rfl, ← put_put]; exact W.put_prefix _ _
    · rw [show b :: bs = [b] ++ bs from rfl, ← put_put]; exact ih h'

theorem two_at {f : F} {w : W} (a b : Bytes) (h : Rel f w) : At t fl (do Io.put t a; Io.put t b) f (w.put (a ++ b)) := by
  rw [← put_put]
  exact At.put a h (W.put_prefix _ _) fun f' h' => put_at b h'

theorem writeId_at {f : F} {w : W} (id : Nat) (h : Rel f w) : At t fl (writeId t id) f (w.writeIds [id]) := by
  unfold writeId
  refine At.get ?_
  simp only [h.binary, W.writeIds]
  split
  · simpa using putBytes_at _ h
  · simpa using two_at _ _ h

theorem writeLit_at {f : F} {w : W} (l : Lit) (h : Rel f w) : At t fl (writeLit t l) f (w.writeLits [l]) := by
  unfold writeLit
  refine At.get ?_
  simp only [h.binary, W.writeLits]
  split
  · simpa using putBytes_at _ h
  · simpa using two_at _ _ h

theorem W.writeIds_prefix (w : W) (ids : List Nat) : w.target <+: (w.writeIds ids).target := W.put_prefix _ _

theorem W.writeLits_prefix (w : W) (ls : List Lit) : w.target <+: (w.writeLits ls).target := W.put_prefix _ _

theorem writeIds_cons (w : W) (id : Nat) (ids : List Nat) : w.writeIds (id :: ids) = (w.writeIds [id]).writeIds ids := by
  unfold W.writeIds
  cases h : w.binary <;> simp [W.put, h]

theorem writeLits_cons (w : W) (l : Lit) (ls : List Lit) : w.writeLits (l :: ls) = (w.writeLits [l]).writeLits ls := by
  unfold W.writeLits
  cases h : w.binary <;> simp [W.put, h]

theorem writeIds_at {f : F} {w : W} (ids : List Nat) (h : Rel f w) : At t fl (writeIds t ids) f (w.writeIds ids) := by
  induction ids generalizing f w with
  | nil =>
    refine At.pure ?_
    have : w.writeIds [] = w := by simp [W.writeIds, W.put]
    rwa [this]
  | cons id ids ih =>
    rw [writeIds_cons]
    exact (writeId_at id h).bind (W.writeIds_prefix _ _) fun f' h' => ih h'

theorem writeLits_at {f : F} {w : W} (ls : List Lit) (h : Rel f w) : At t fl (writeLits t ls) f (w.writeLits ls) := by
  induction ls generalizing f w with
  | nil =>
    refine At.pure ?_
    have : w.writeLits [] = w := by simp [W.writeLits, W.put]
    rwa [this]
  | cons l ls ih =>
    rw [writeLits_cons]
    exact (writeLit_at l h).bind (W.writeLits_prefix _ _) fun f' h' => ih h'

theorem writeEnd_at {f : F} {w : W} (h : Rel f w) : At t fl (writeEnd t) f w.writeEnd := by
  unfold writeEnd W.writeEnd
  refine At.get ?_
  simp only [h.binary]
  split <;> exact put_at _ h

theorem writeSep_at {f : F} {w : W} (h : Rel f w) : At t fl (writeSep t) f w.writeSep := by
  unfold writeSep W.writeSep
  refine At.get ?_
  simp only [h.binary]
  split <;> exact put_at _ h

theorem writeDeleteStep_at {f : F} {w : W} (h : Rel f w) : At t fl (writeDeleteStep t) f w.writeDeleteStep := by
  unfold writeDeleteStep W.writeDeleteStep
  refine At.get ?_
  simp only [h.binary]
  split <;> exact put_at _ h

theorem writeAddStep_at {f : F} {w : W} (h : Rel f w) : At t fl (writeAddStep t) f w.writeAddStep := by
  unfold writeAddStep W.writeAddStep
  refine At.get ?_
  simp only [h.binary]
  split
  · exact put_at _ h
  · exact At.pure h

theorem W.writeAddStep_prefix (w : W) : w.target <+: w.writeAddStep.target := by
  unfold W.writeAddStep
  split
  · exact W.put_prefix _ _
  · exact List.prefix_refl _

/-- `writeLast` on the other writer. -/
def last (w : W) : W := if !w.binary then w.writeIds [w.lastAddedId] else w

theorem writeLast_at {f : F} {w : W} (h : Rel f w) : At t fl (writeLast t) f (last w) := by
  unfold writeLast last
  refine At.get ?_
  simp only [h.binary, h.last]
  split
  · exact writeIds_at _ h
  · exact At.pure h

theorem last_prefix (w : W) : w.target <+: (last w).target := by
  unfold last
  split
  · exact W.writeIds_prefix _ _
  · exact List.prefix_refl _

theorem W.openDelete_prefix (w : W) : w.target <+: w.openDelete.target := by
  unfold W.openDelete
  split
  · exact (last_prefix w).trans (W.put_prefix (last w) _)
  · exact List.prefix_refl _

theorem openDelete_at {f : F} {w : W} (h : Rel f w) : At t fl (openDelete t) f w.openDelete := by
  unfold openDelete W.openDelete
  refine At.get ?_
  simp only [h.openE]
  split
  · refine (writeLast_at h).bind (W.put_prefix (last w) _) fun f1 h1 => ?_
    refine (writeDeleteStep_at h1).bind (List.prefix_refl _) fun f2 h2 => ?_
    exact At.modify ⟨h2.binary, h2.target, h2.cap, h2.zero, rfl, h2.last, h2.dels⟩ rfl
  · exact At.pure h

theorem W.closeDelete_prefix (w : W) : w.target <+: w.closeDelete.target := by
  unfold W.closeDelete
  split
  · exact W.put_prefix _ _
  · exact List.prefix_refl _

theorem closeDelete_at {f : F} {w : W} (h : Rel f w) : At t fl (closeDelete t) f w.closeDelete := by
  unfold closeDelete W.closeDelete
  refine At.get ?_
  simp only [h.openE]
  split
  · refine (writeEnd_at h).bind (List.prefix_refl _) fun f2 h2 => ?_
    exact At.modify ⟨h2.binary, h2.target, h2.cap, h2.zero, rfl, h2.last, h2.dels⟩ rfl
  · exact At.pure h

theorem delete_at {f : F} {w : W} (id : Nat) (h : Rel f w) : At t fl (delete t id) f (w.openDelete.writeIds [id]) :=
  (openDelete_at h).bind (W.writeIds_prefix _ _) fun _ h' => writeIds_at _ h'

theorem flushDeletes_at {f : F} {w : W} (h : Rel f w) :
    At t fl (flushDeletes t) f (if w.bufferedDeletes ≠ [] then ({ w with bufferedDeletes := [] }.openDelete).writeIds w.bufferedDeletes else w) := by
  unfold flushDeletes
  refine At.get ?_
  simp only [h.dels]
  split
  · refine (At.modify (w := { w with bufferedDeletes := [] }) ⟨h.binary, h.target, h.cap, h.zero, h.openE, h.last, rfl⟩ rfl).bind
      ((W.openDelete_prefix { w with bufferedDeletes := [] }).trans (W.writeIds_prefix _ _)) fun f1 h1 => ?_
    exact (openDelete_at h1).bind (W.writeIds_prefix _ _) fun _ h' => writeIds_at _ h'
  · exact At.pure h

theorem flushBuffered_at {f : F} {w : W} (s : CheckedStep) (h : Rel f w) : At t fl (flushBuffered t s) f (w.flushBuffered s) := by
  cases s <;> first | exact At.pure h | exact flushDeletes_at h

theorem W.flushBuffered_prefix (w : W) (s : CheckedStep) : w.target <+: (w.flushBuffered s).target := by
  have : w.target <+: (if w.bufferedDeletes ≠ [] then ({ w with bufferedDeletes := [] }.openDelete).writeIds w.bufferedDeletes else w).target := by
    split
    · exact (W.openDelete_prefix { w with bufferedDeletes := [] }).trans (W.writeIds_prefix _ _)
    · exact List.prefix_refl _
  cases s <;> first | exact this | exact List.prefix_refl _

theorem skipped_at {f : F} {w : W} (id : Nat) (h : Rel f w) : At t fl (skipped t id) f (w.skipped id) := by
  unfold skipped W.skipped
  refine (At.modify (w := { w with lastAddedId := id }) ⟨h.binary, h.target, h.cap, h.zero, h.openE, rfl, h.dels⟩ rfl).bind ?_ fun f1 h1 => ?_
  · simp only
    split
    · exact (W.openDelete_prefix { w with lastAddedId := id }).trans (W.writeIds_prefix _ _)
    · exact List.prefix_refl _
  · unfold skip
    refine At.get ?_
    simp only [h1.binary]
    split
    · exact delete_at _ h1
    · exact At.modify ⟨h1.binary, h1.target, h1.cap, h1.zero, h1.openE, h1.last, by simp [h1.dels]⟩ rfl

theorem W.skipped_prefix (w : W) (id : Nat) : w.target <+: (w.skipped id).target := by
  unfold W.skipped
  simp only
  split
  · exact (W.openDelete_prefix { w with lastAddedId := id }).trans (W.writeIds_prefix _ _)
  · exact List.prefix_refl _

theorem writeStep_at {f : F} {w : W} (s : CheckedStep) (h : Rel f w) : At t fl (writeStep t s) f (w.writeStep s) := by
  cases s with
  | addClause id => exact At.modify ⟨h.binary, h.target, h.cap, h.zero, h.openE, rfl, h.dels⟩ rfl
  | duplicatedClause id => exact skipped_at _ h
  | tautologicalClause id => exact skipped_at _ h
  | atClause id r clause props =>
    have e1 := fun (w : W) => (W.writeIds_prefix w props).trans (W.put_prefix _ _ : _ <+: (w.writeIds props).writeEnd.target)
    have e2 := fun (w : W) => (W.put_prefix _ _ : w.target <+: w.writeSep.target).trans (e1 _)
    have e3 := fun (w : W) => (W.writeLits_prefix w clause).trans (e2 _)
    have e4 := fun (w : W) => (W.writeIds_prefix w [id]).trans (e3 _)
    have e5 := fun (w : W) => (W.writeAddStep_prefix w).trans (e4 _)
    refine (closeDelete_at h).bind (e5 { w.closeDelete with lastAddedId := id }) fun f1 h1 => ?_
    refine (At.modify (w := { w.closeDelete with lastAddedId := id }) ⟨h1.binary, h1.target, h1.cap, h1.zero, h1.openE, rfl, h1.dels⟩ rfl).bind (e5 _) fun f2 h2 => ?_
    refine (writeAddStep_at h2).bind (e4 _) fun f3 h3 => ?_
    refine (writeIds_at _ h3).bind (e3 _) fun f4 h4 => ?_
    refine (writeLits_at _ h4).bind (e2 _) fun f5 h5 => ?_
    refine (writeSep_at h5).bind (e1 _) fun f6 h6 => ?_
    exact (writeIds_at _ h6).bind (W.put_prefix _ _) fun f7 h7 => writeEnd_at h7
  | deleteAtClause id keep =>
    show At t fl (if !keep then delete t id else pure ()) f (if !keep then _ else w)
    split
    · exact delete_at _ h
    · exact At.pure h
  | deleteRatClause id keep =>
    show At t fl (if !keep then delete t id else pure ()) f (if !keep then _ else w)
    split
    · exact delete_at _ h
    · exact At.pure h
  | deleteClause id => exact delete_at _ h
  | _ => exact At.pure h

theorem W.writeStep_prefix (w : W) (s : CheckedStep) : w.target <+: (w.writeStep s).target := by
  have hd : ∀ id, w.target <+: (w.openDelete.writeIds [id]).target := fun id => (W.openDelete_prefix w).trans (W.writeIds_prefix _ _)
  cases s with
  | duplicatedClause id => exact W.skipped_prefix _ _
  | tautologicalClause id => exact W.skipped_prefix _ _
  | atClause id r clause props =>
    refine (W.closeDelete_prefix w).trans ((W.writeAddStep_prefix { w.closeDelete with lastAddedId := id }).trans ?_)
    exact (W.writeIds_prefix _ [id]).trans ((W.writeLits_prefix _ clause).trans ((W.put_prefix _ _).trans ((W.writeIds_prefix _ props).trans (W.put_prefix _ _))))
  | deleteAtClause id keep =>
    show w.target <+: (if !keep then w.openDelete.writeIds [id] else w).target
    split
    · exact hd _
    · exact List.prefix_refl _
  | deleteRatClause id keep =>
    show w.target <+: (if !keep then w.openDelete.writeIds [id] else w).target
    split
    · exact hd _
    · exact List.prefix_refl _
  | deleteClause id => exact hd _
  | _ => exact List.prefix_refl _

theorem W.op_prefix (w : W) (o : Op) : w.target <+: (w.op o).target := by
  cases o with
  | step s => exact (W.flushBuffered_prefix w s).trans (W.writeStep_prefix _ _)
  | flush => exact W.closeDelete_prefix w

theorem flushTarget_at {f : F} {w : W} (hfl : fl) (h : Rel f w) :
    (∃ f', flushTarget t f = .ok () f' ∧ Rel f' w ∧ Calls t f f' ∧ f'.buf = []) ∨ ∃ f', flushTarget t f = .error () f' ∧ Failed t fl f f' w := by
  rcases flushBuf_at (t := t) h with ⟨f', k1, k2, k3, k4⟩ | ⟨f', k1, k2⟩
  · have e : flushTarget t f = if !t.flush f'.calls then .error () f' else .ok () f' := by
      unfold flushTarget
      show EStateM.bind _ _ f = _
      unfold EStateM.bind
      rw [k1]
      show (if !t.flush f'.calls then throw () else pure () : M Unit) f' = _
      split <;> rfl
    rw [e]
    cases hf : t.flush f'.calls with
    | true => exact .inl ⟨f', rfl, k2, k3, k4⟩
    | false => exact .inr ⟨f', rfl, by rw [k2.target]; exact List.prefix_refl _, k2.cap, k3.1, .inr ⟨hfl, hf⟩⟩
  · have e : flushTarget t f = .error () f' := by
      unfold flushTarget
      show EStateM.bind _ _ f = _
      unfold EStateM.bind
      rw [k1]
    exact .inr ⟨f', e, k2⟩

theorem op_at {f : F} {w : W} (o : Op) (ho : o = .flush → fl) (h : Rel f w) : At t fl (op t o) f (w.op o) := by
  cases o with
  | step s => exact (flushBuffered_at s h).bind (W.writeStep_prefix _ _) fun f' h' => writeStep_at s h'
  | flush =>
    refine (closeDelete_at h).bind (List.prefix_refl _) fun f' h' => ?_
    rcases flushTarget_at (t := t) (ho rfl) h' with ⟨g, k1, k2, k3, -⟩ | ⟨g, k1, k2⟩
    · exact .inl ⟨g, k1, k2, k3, .inl (ho rfl)⟩
    · exact .inr ⟨g, k1, k2, .inl (ho rfl)⟩

theorem foldl_prefix (os : List Op) (w : W) : w.target <+: (os.foldl W.op w).target := by
  induction os generalizing w with
  | nil => exact List.prefix_refl _
  | cons o os ih => exact (W.op_prefix w o).trans (ih _)

theorem ops_at (os : List Op) (ho : .flush ∈ os → fl) {f : F} {w : W} (h : Rel f w) : At t fl (ops t os) f (os.foldl W.op w) := by
  induction os generalizing f w with
  | nil => exact At.pure h
  | cons o os ih =>
    exact (op_at o (fun e => ho (by simp [e])) h).bind (foldl_prefix _ _) fun f' h' => ih (fun e => ho (List.mem_cons_of_mem _ e)) h'

theorem rel_new (binary : Bool) : Rel { binary := binary } { binary := binary } := ⟨rfl, rfl, by simp, fun _ => rfl, rfl, rfl, rfl⟩

/-! ### What the target has got stays there -/

/-- The state after an action, failed or not. -/
def after (m : M Unit) (f : F) : F := match m f with | .ok _ f => f | .error _ f => f

def Grows (m : M Unit) : Prop := ∀ f, f.data <+: (after m f).data

theorem Grows.bind {m m' : M Unit} (h : Grows m) (h' : Grows m') : Grows (m >>= fun _ => m') := by
  intro f
  have h1 := h f
  unfold after at *
  show f.data <+: (match EStateM.bind m (fun _ => m') f with | .ok _ f => f | .error _ f => f : F).data
  unfold EStateM.bind
  cases hm : m f with
  | ok u g =>
    rw [hm] at h1
    exact h1.trans (h' g)
  | error e g => rw [hm] at h1; exact h1

theorem Grows.get {k : F → M Unit} (h : ∀ f, Grows (k f)) : Grows (get >>= k) := fun f => h f f

theorem grows_modify {g : F → F} (h : ∀ f, (g f).data = f.data) : Grows (modify g) := fun f => by
  show f.data <+: (g f).data
  rw [h]; exact List.prefix_refl _

theorem drain_grows {bs : Bytes} {k : Nat} {d : Bytes} {ok : Bool} {rest : Bytes} {k' : Nat} {d' : Bytes} (h : drain t bs k d = (ok, rest, k', d')) :
    d <+: d' := by
  obtain ⟨h1, h2, -⟩ := drain_spec _ _ _ h
  refine List.prefix_of_prefix_length_le (List.prefix_append d bs) (by rw [← h1]; exact List.prefix_append d' rest) ?_
  have := congrArg List.length h1
  simp only [List.length_append] at this
  omega

theorem flushBuf_grows : Grows (flushBuf t) := by
  intro f
  unfold after flushBuf
  rcases hd : drain t f.buf f.calls f.data with ⟨ok, rest, k', d'⟩
  have := drain_grows hd
  cases ok <;> exact this

theorem writeDirect_grows (bs : Bytes) : Grows (writeDirect t bs) := by
  intro f
  unfold after writeDirect
  rcases hd : drain t bs f.calls f.data with ⟨ok, rest, k', d'⟩
  have := drain_grows hd
  cases ok <;> exact this

theorem putRest_grows (bs : Bytes) : Grows (putRest t bs) := by
  unfold putRest
  split
  · exact writeDirect_grows bs
  · exact grows_modify fun _ => rfl

theorem put_grows (bs : Bytes) : Grows (Io.put t bs) := by
  intro f
  unfold Io.put
  by_cases h1 : bs.length < capacity - f.buf.length
  · refine List.IsPrefix.trans (List.prefix_refl _) ?_
    show f.data <+: (after (if bs.length < capacity - f.buf.length then _ else _) f).data
    rw [if_pos h1]
    exact List.prefix_refl _
  · show f.data <+: (after (if bs.length < capacity - f.buf.length then _ else _) f).data
    rw [if_neg h1]
    split
    · exact (flushBuf_grows.bind (putRest_grows bs)) f
    · exact putRest_grows bs f

theorem closeDelete_grows : Grows (closeDelete t) := by
  unfold closeDelete
  refine Grows.get fun f => ?_
  split
  · refine Grows.bind ?_ (grows_modify fun _ => rfl)
    unfold writeEnd
    refine Grows.get fun f => ?_
    split <;> exact put_grows _
  · exact grows_modify (g := id) fun _ => rfl

theorem dropped_grows (t : Target) (f : F) : f.data <+: (dropped t f).data :=
  (closeDelete_grows (t := t) f).trans (flushBuf_grows _)

end Varisat.Lrat.Io
