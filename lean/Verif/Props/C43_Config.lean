import Verif.Proof.Config
/-!
# C43: configuration updates are atomic

For every configuration, every update (all bit patterns of the `f32` fields, including NaN, infinities and
negative zero) and every sequence of updates.
-/
namespace Varisat.Config.C43

/-- Applying an update either returns an error, because a given field is outside its documented range, and
changes nothing; or all given fields are within their ranges and exactly these are set. -/
theorem atomic (u : Update) (c : SolverConfig) :
    (¬ u.InRange ∧ ∃ f, u.apply c = (c, .error f)) ∨
    (u.InRange ∧ ∃ d, u.apply c = (d, .ok ()) ∧ u.Sets c d) := by
  unfold Update.apply
  cases hc : u.check with
  | error f =>
    refine .inl ⟨fun k => ?_, f, rfl⟩
    rw [(check_ok u).2 k] at hc; cases hc
  | ok _ => exact .inr ⟨(check_ok u).1 hc, _, rfl, set_sets u c⟩

/-- Test: an update with a good and a bad field. -/
example : (Update.apply { reduceMidsInterval := some 7, lubyRestartIntervalScale := some 0 } .default) =
    (.default, .error .lubyRestartIntervalScale) := rfl
/-- Test: NaN, 1.0 and 0.49999997 are rejected, 0.5 and 0.99999994 are accepted. -/
example : ([0x7FC00000#32, 0x3F800000#32, 0x3EFFFFFF#32, 0x3F000000#32, 0x3F7FFFFF#32].map
    fun x => ((Update.apply { vsidsDecay := some x } .default).2.isOk)) = [false, false, false, true, true] := by decide

/-- The same for the solver, after any sequence of updates: no call panics, a failing one changes nothing, a
successful one sets exactly the given fields and the factors derived from them. -/
theorem solver {recip : F32 → F32} {h : List (Update × Except Field Unit)} {s : St} (r : Ran recip h s) (u : Update) :
    (¬ u.InRange ∧ ∃ f, s.configure recip u = some (s, .error f)) ∨
    (u.InRange ∧ ∃ s', s.configure recip u = some (s', .ok ()) ∧ u.Sets s.config s'.config ∧
      s'.vsidsInvDecay = recip s'.config.vsidsDecay ∧ s'.clauseInvDecay = recip s'.config.clauseActivityDecay) := by
  rcases r.ok.configure u with h | ⟨h1, s', h2, h3, h4⟩
  · exact .inl h
  · exact .inr ⟨h1, s', h2, h4, h3.vsids, h3.clause⟩

/-- The configuration of a solver is always within the documented ranges, and the factors in use are those of
the configuration. -/
theorem in_range {recip : F32 → F32} {h : List (Update × Except Field Unit)} {s : St} (r : Ran recip h s) :
    s.config.InRange ∧ s.vsidsInvDecay = recip s.config.vsidsDecay ∧
      s.clauseInvDecay = recip s.config.clauseActivityDecay :=
  ⟨r.ok.range, r.ok.vsids, r.ok.clause⟩

/-- The theorems apply to a rejected update followed by an accepted one. -/
example : ∃ s, Ran id [({ vsidsDecay := some 0x7FC00000#32 }, .error .vsidsDecay),
      ({ clauseActivityDecay := some half, reduceLocalsInterval := some 3 }, .ok ())] s ∧
    s.config = ⟨0x3F733333#32, half, 3, 10000, 128⟩ ∧ s.clauseInvDecay = half := by
  refine ⟨⟨⟨0x3F733333#32, half, 3, 10000, 128⟩, 0x3F733333#32, half⟩, ?_, rfl, rfl⟩
  exact Ran.call (h := [_]) (Ran.call (h := []) .new (rfl : _ = some (St.new id, _))) rfl

/-- Merging gives each field the value of the second update, or else of the first. -/
theorem merge_fields (u v : Update) :
    (u.merge v).vsidsDecay = v.vsidsDecay.or u.vsidsDecay ∧
    (u.merge v).clauseActivityDecay = v.clauseActivityDecay.or u.clauseActivityDecay ∧
    (u.merge v).reduceLocalsInterval = v.reduceLocalsInterval.or u.reduceLocalsInterval ∧
    (u.merge v).reduceMidsInterval = v.reduceMidsInterval.or u.reduceMidsInterval ∧
    (u.merge v).lubyRestartIntervalScale = v.lubyRestartIntervalScale.or u.lubyRestartIntervalScale := by
  unfold Update.merge
  refine ⟨?_, ?_, ?_, ?_, ?_⟩ <;> simp only <;> split <;> simp_all

/-- Applying the merged update is the same as applying the first and then the second, if both are accepted.
Missing from the full statement: the case that one of them is rejected, where it is false (`merge_repairs`,
`merge_discards`). -/
theorem merge_partial {u v : Update} {c d d' : SolverConfig} (h1 : u.apply c = (d, .ok ()))
    (h2 : v.apply d = (d', .ok ())) : (u.merge v).apply c = (d', .ok ()) := by
  rcases atomic u c with ⟨_, f, q⟩ | ⟨g1, d1, q, k1⟩
  · rw [q] at h1; cases h1
  rw [q] at h1
  obtain rfl : d1 = d := congrArg Prod.fst h1
  rcases atomic v d1 with ⟨_, f, q⟩ | ⟨g2, d2, q, k2⟩
  · rw [q] at h2; cases h2
  rw [q] at h2
  obtain rfl : d2 = d' := congrArg Prod.fst h2
  rcases atomic (u.merge v) c with ⟨n, _⟩ | ⟨_, _, q, k3⟩
  · exact absurd (merge_inRange g1 g2) n
  · rw [q, k3.eq (merge_sets k1 k2)]

/-- The theorem applies to overlapping updates. -/
example : ∃ d d', Update.apply { vsidsDecay := some half, reduceMidsInterval := some 5 } .default = (d, .ok ()) ∧
    Update.apply { reduceMidsInterval := some 6 } d = (d', .ok ()) ∧ d'.reduceMidsInterval = 6 ∧ d'.vsidsDecay = half :=
  ⟨_, _, rfl, rfl, rfl, rfl⟩

/-- If the merged update is accepted, so is the second one, whatever came before. -/
theorem merge_accepted {u v : Update} {c d d' : SolverConfig} (h : (u.merge v).apply c = (d, .ok ())) :
    (v.apply d').2 = .ok () := by
  rcases atomic (u.merge v) c with ⟨_, f, q⟩ | ⟨g, _⟩
  · rw [q] at h; cases h
  rcases atomic v d' with ⟨n, _⟩ | ⟨_, _, q, _⟩
  · exact absurd (merge_inRange_right g) n
  · rw [q]

/-- The hypothesis can be met. -/
example : ∃ d, (Update.merge { vsidsDecay := some half } { vsidsDecay := some 0x3F400000#32 }).apply .default = (d, .ok ()) :=
  ⟨_, rfl⟩

/-- The property is false when the first update is rejected: overwriting its bad value makes the merged update
acceptable. -/
theorem merge_repairs : ∃ (u v : Update) (c d : SolverConfig), (u.apply c).2 = .error .lubyRestartIntervalScale ∧
    (u.merge v).apply c = (d, .ok ()) ∧ d ≠ (v.apply (u.apply c).1).1 := by
  refine ⟨{ vsidsDecay := some half, lubyRestartIntervalScale := some 0 }, { lubyRestartIntervalScale := some 1 },
    .default, _, rfl, rfl, by decide⟩

/-- The property is false when the second update is rejected: the first one stays applied, the merged one does
not. -/
theorem merge_discards : ∃ (u v : Update) (c d : SolverConfig), u.apply c = (d, .ok ()) ∧
    v.apply d = (d, .error .vsidsDecay) ∧ (u.merge v).apply c = (c, .error .vsidsDecay) ∧ c ≠ d := by
  refine ⟨{ lubyRestartIntervalScale := some 1 }, { vsidsDecay := some 0x7FC00000#32 }, .default, _, rfl, rfl, rfl, by decide⟩

end Varisat.Config.C43
