import Verif.Proof.LratBuffer
/-!
# C69: an LRAT writer reports errors of its target when it is flushed, at the latest

`Model/LratBuffer` has the buffer of the writer, and a target that takes some of the bytes it is offered or fails. `Lrat.output` is the
file for a target without failures; what it says is C24.
-/
namespace Varisat.Lrat
open Checker Io

theorem use_ok {t : Target} {binary : Bool} {os : List Op} {f : F} (h : use t binary os = (true, f)) :
    ops t os { binary := binary } = .ok () f ∧ Rel f (os.foldl W.op { binary := binary }) ∧ Calls t { binary := binary } f ∧
      (.flush ∈ os ∨ f.calls = 0 ∨ capacity ≤ (os.foldl W.op { binary := binary }).target.length) := by
  unfold use at h
  rcases ops_at (t := t) os (fl := .flush ∈ os) id (rel_new binary) with ⟨f', h1, h2, h3, h4⟩ | ⟨f', h1, h2⟩
  · rw [h1] at h
    simp only [Prod.mk.injEq, true_and] at h
    subst h
    exact ⟨h1, h2, h3, h4⟩
  · rw [h1] at h
    simp at h

theorem use_fails {t : Target} {binary : Bool} {os : List Op} {f : F} (h : use t binary os = (false, f)) :
    Failed t (.flush ∈ os) { binary := binary } f (os.foldl W.op { binary := binary }) ∧
      (.flush ∈ os ∨ capacity ≤ (os.foldl W.op { binary := binary }).target.length) := by
  unfold use at h
  rcases ops_at (t := t) os (fl := .flush ∈ os) id (rel_new binary) with ⟨f', h1, h2, h3, h4⟩ | ⟨f', h1, h2⟩
  · rw [h1] at h
    simp at h
  · rw [h1] at h
    simp only [Prod.mk.injEq, true_and] at h
    subst h
    exact h2

theorem ops_append (t : Target) (os : List Op) (o : Op) (f : F) :
    ops t (os ++ [o]) f = match ops t os f with | .ok _ f => op t o f | .error e f => .error e f := by
  induction os generalizing f with
  | nil =>
    show EStateM.bind (op t o) (fun _ => pure ()) f = op t o f
    unfold EStateM.bind
    cases op t o f <;> rfl
  | cons a os ih =>
    show EStateM.bind (op t a) (fun _ => ops t (os ++ [o])) f = match EStateM.bind (op t a) (fun _ => ops t os) f with | .ok _ f => _ | .error e f => _
    unfold EStateM.bind
    cases op t a f with
    | ok _ f' => exact ih f'
    | error _ f' => rfl

/-- **C69**: after a successful `flush`, if no step failed before, the target has got the whole proof. -/
theorem C69.flushed {t : Target} {binary : Bool} {os : List Op} {f : F} (h : use t binary (os ++ [.flush]) = (true, f)) :
    f.data = output binary os := by
  have h1 := (use_ok h).1
  rw [ops_append] at h1
  rcases ops_at (t := t) os (fl := True) (fun _ => trivial) (rel_new binary) with ⟨f', k1, k2, -⟩ | ⟨f', k1, -⟩
  · rw [k1] at h1
    simp only at h1
    change EStateM.bind (closeDelete t) (fun _ => flushTarget t) f' = _ at h1
    unfold EStateM.bind at h1
    rcases closeDelete_at (t := t) (fl := True) k2 with ⟨g, m1, m2, -⟩ | ⟨g, m1, -⟩
    · rw [m1] at h1
      change flushTarget t g = _ at h1
      rcases flushTarget_at (t := t) (fl := True) trivial m2 with ⟨g', n1, n2, -, n4⟩ | ⟨g', n1, -⟩
      · rw [n1] at h1
        cases h1
        have := n2.target
        rw [n4, List.append_nil] at this
        exact this.symm
      · rw [n1] at h1; cases h1
    · rw [m1] at h1; cases h1
  · rw [k1] at h1; cases h1

/-- **C69**: as long as no use failed, no call of the target failed; what it has got is a part of the proof, and the rest is in
the buffer. -/
theorem C69.unfailing {t : Target} {binary : Bool} {os : List Op} {f : F} (h : use t binary os = (true, f)) :
    (∀ k, k < f.calls → ¬ t.FailsAt k) ∧ f.data <+: output binary os ∧ (output binary os).length ≤ f.data.length + capacity + 2 := by
  obtain ⟨-, h2, h3, -⟩ := use_ok h
  refine ⟨fun k hk => h3.2 k (Nat.zero_le _) hk, ?_, ?_⟩
  · refine List.IsPrefix.trans ?_ (W.closeDelete_prefix _)
    rw [h2.target]
    exact List.prefix_append _ _
  · have hc := h2.cap
    have : ∀ w : W, w.closeDelete.target.length ≤ w.target.length + 2 := by
      intro w
      unfold W.closeDelete W.writeEnd W.put
      split
      · simp only [List.length_append]
        split <;> simp
      · omega
    refine Nat.le_trans (this _) ?_
    rw [h2.target, List.length_append]
    omega

/-- **C69**: a use fails only if the target fails; the target then has a part of the proof. -/
theorem C69.failed {t : Target} {binary : Bool} {os : List Op} {f : F} (h : use t binary os = (false, f)) :
    (t.FailsAt (f.calls - 1) ∨ t.flush f.calls = false) ∧ f.data <+: output binary os := by
  obtain ⟨h1, -⟩ := use_fails h
  refine ⟨h1.bad.imp (·.2) (·.2), ((List.prefix_append _ _).trans h1.pre).trans (W.closeDelete_prefix _)⟩

/-- **C69**: dropping the writer completes the proof, or the target fails. -/
theorem C69.dropped {t : Target} {binary : Bool} {os : List Op} {f : F} (h : use t binary os = (true, f)) :
    (Io.dropped t f).data <+: output binary os ∧ ((Io.dropped t f).data = output binary os ∨ ∃ k, f.calls ≤ k ∧ t.FailsAt k) := by
  obtain ⟨-, h2, -, -⟩ := use_ok h
  unfold Io.dropped
  rcases closeDelete_at (t := t) (fl := False) h2 with ⟨g, m1, m2, m3, -⟩ | ⟨g, m1, m2, -⟩
  · rw [m1]
    simp only
    rcases flushBuf_at (t := t) (fl := False) m2 with ⟨g', n1, n2, n3, n4⟩ | ⟨g', n1, n2⟩
    · rw [n1]
      have := n2.target
      rw [n4, List.append_nil] at this
      exact ⟨by rw [← this]; exact List.prefix_refl _, .inl this.symm⟩
    · rw [n1]
      refine ⟨(List.prefix_append _ _).trans n2.pre, .inr ?_⟩
      rcases n2.bad with b | b
      · exact ⟨_, by have := b.1; have := m3.1; omega, b.2⟩
      · exact b.1.elim
  · rw [m1]
    simp only
    have hbad : ∃ k, f.calls ≤ k ∧ t.FailsAt k := by
      rcases m2.bad with b | b
      · exact ⟨_, by have := b.1; omega, b.2⟩
      · exact b.1.elim
    unfold flushBuf
    rcases hd : drain t g.buf g.calls g.data with ⟨ok, rest, k', d'⟩
    obtain ⟨h1, -⟩ := drain_spec _ _ _ hd
    have hp : d' <+: output binary os := by
      refine List.IsPrefix.trans ?_ m2.pre
      rw [← h1]
      exact List.prefix_append _ _
    cases ok <;> exact ⟨hp, .inr hbad⟩

/-- **C69**: a writer whose steps all succeeded and that is dropped then. Its file is complete, or a call of the target has failed while
dropping; at most the buffer and the end of a line are lost. -/
theorem C69.kept {t : Target} {binary : Bool} {steps : List CheckedStep} (h : accepts t binary steps = true) :
    file t binary steps <+: output binary (steps.map .step) ∧
      (output binary (steps.map .step)).length ≤ (file t binary steps).length + (8192 + 2) ∧
      ∃ n, (∀ k, k < n → ¬ t.FailsAt k) ∧ (file t binary steps = output binary (steps.map .step) ∨ ∃ k, n ≤ k ∧ t.FailsAt k) := by
  unfold accepts at h
  unfold file
  rcases hu : use t binary (steps.map .step) with ⟨ok, f⟩
  rw [hu] at h
  obtain rfl : ok = true := h
  obtain ⟨h1, h2⟩ := C69.dropped hu
  obtain ⟨h3, -, h5⟩ := C69.unfailing hu
  have := (dropped_grows t f).length_le
  exact ⟨h1, by unfold capacity at h5; simp only; omega, f.calls, h3, h2⟩

/-- **C69**: errors are not reported earlier: while the proof fits into the buffer the target is not used. -/
theorem C69.silent (t : Target) {binary : Bool} {steps : List CheckedStep} (h : (output binary (steps.map .step)).length < capacity) :
    accepts t binary steps = true ∧ ∃ f, use t binary (steps.map .step) = (true, f) ∧ f.calls = 0 ∧ f.data = [] := by
  have hn : Op.flush ∉ steps.map Op.step := by simp
  have hl := (W.closeDelete_prefix ((steps.map Op.step).foldl W.op { binary := binary })).length_le
  have hl : ((steps.map Op.step).foldl W.op { binary := binary }).target.length < capacity := Nat.lt_of_le_of_lt hl h
  unfold accepts
  rcases hu : use t binary (steps.map .step) with ⟨ok, f⟩
  cases ok with
  | false =>
    obtain ⟨-, h2⟩ := use_fails hu
    rcases h2 with h2 | h2
    · exact absurd h2 hn
    · omega
  | true =>
    obtain ⟨-, h2, h3, h4⟩ := use_ok hu
    have hc : f.calls = 0 := by
      rcases h4 with h4 | h4 | h4
      · exact absurd h4 hn
      · exact h4
      · omega
    exact ⟨rfl, f, rfl, hc, h2.zero hc⟩

/-- **C69**: a target that does not fail gets the whole proof. -/
theorem C69.complete {t : Target} (ht : ∀ k, ¬ t.FailsAt k) (binary : Bool) (steps : List CheckedStep) :
    accepts t binary steps = true ∧ file t binary steps = output binary (steps.map .step) := by
  unfold accepts file
  rcases hu : use t binary (steps.map .step) with ⟨ok, f⟩
  cases ok with
  | false =>
    rcases (use_fails hu).1.bad with h | h
    · exact absurd h.2 (ht _)
    · simp at h
  | true =>
    refine ⟨rfl, ?_⟩
    rcases (C69.dropped hu).2 with h | ⟨k, -, h⟩
    · exact h
    · exact absurd h (ht k)

/-- What dropping a writer without `flush` hides: no step fails although the target takes nothing, and the file stays empty. -/
theorem C69.lost {binary : Bool} {steps : List CheckedStep} (h : (output binary (steps.map .step)).length < capacity) :
    accepts .full binary steps = true ∧ file .full binary steps = [] := by
  obtain ⟨h1, f, h2, h3, h4⟩ := C69.silent .full h
  refine ⟨h1, ?_⟩
  have hd : ∀ bs k d, (drain .full bs k d).2.2.2 = d := by
    intro bs k d
    cases bs <;> simp [drain, Target.full]
  have hf : ∀ f, (match flushBuf .full f with | .ok _ f => f | .error _ f => f).data = f.data := by
    intro f
    have := hd f.buf f.calls f.data
    unfold flushBuf
    rcases hr : drain .full f.buf f.calls f.data with ⟨ok, rest, k', d'⟩
    rw [hr] at this
    cases ok <;> exact this
  unfold file Io.dropped
  rw [h2]
  refine (hf _).trans ?_
  obtain ⟨-, m, -⟩ := use_ok h2
  rcases closeDelete_at (t := .full) (fl := False) m with ⟨g, m1, m2, m3, -⟩ | ⟨g, m1, m2, m3⟩
  · simp only [m1]
    have hc : g.calls = 0 := by
      by_contra hne
      exact m3.2 (g.calls - 1) (by omega) (by omega) (.inl rfl)
    exact m2.zero hc
  · exfalso
    rcases m3 with m3 | m3
    · exact m3
    · exact absurd h (Nat.not_lt.2 m3)

/-- Two steps: a derived clause and its deletion. -/
def C69.sample : List CheckedStep := [.atClause 3 true [⟨0⟩, ⟨3⟩] [1, 2], .deleteClause 3 [⟨0⟩, ⟨3⟩]]

/-- A target that takes three bytes at each call. -/
def C69.slow : Target := ⟨fun _ => some 3, fun _ => true⟩

/-- A test of the theorems above: a flushed writer, one that fails, and dropped ones. -/
example : (use C69.slow false (C69.sample.map .step ++ [.flush])).1 = true ∧
    (use C69.slow false (C69.sample.map .step ++ [.flush])).2.data = ascii "4 1 -2 0 2 3 0\n4 d 4 0\n" ∧
    (use C69.slow false (C69.sample.map .step ++ [.flush])).2.calls = 8 ∧
    use .full true (C69.sample.map .step ++ [.flush]) = (false, { binary := true, buf := [97, 8, 2, 5, 0, 4, 6, 0, 100, 8, 0], calls := 1, lastAddedId := 3 }) ∧
    file ⟨fun k => if k = 1 then none else some 4, fun _ => true⟩ true C69.sample = [97, 8, 2, 5] ∧
    file C69.slow true C69.sample = [97, 8, 2, 5, 0, 4, 6, 0, 100, 8, 0] ∧
    (output true (C69.sample.map .step)).length < capacity ∧ ∀ k, ¬ C69.slow.FailsAt k := by
  refine ⟨by decide +kernel, by decide +kernel, by decide +kernel, by decide +kernel, by decide +kernel, by decide +kernel, by decide +kernel, fun k => ?_⟩
  unfold Target.FailsAt C69.slow
  simp

end Varisat.Lrat
