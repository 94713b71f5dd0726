import Verif.Proof.Solver.Grow
import Verif.Spec.Glue
/-!
# `compute_glue`
-/
namespace Varisat.Solver

variable {α : Type} [LinearOrder α]

theorem glueLoop_spec (p : Pt) : ∀ (ls : List Lit) (flags : Nat → Bool) (g : Nat) (seen : List Nat), seen.Nodup →
    (∀ v, flags v = true ↔ v ∈ seen) → ∃ seen' : List Nat, seen'.Nodup ∧ (∀ v, (glueLoop p ls flags g).1 v = true ↔ v ∈ seen') ∧
      (glueLoop p ls flags g).2 + seen.length = g + seen'.length ∧
      ∀ v, v ∈ seen' ↔ v ∈ seen ∨ v ∈ ls.map (fun l => p.level l.var)
  | [], flags, g, seen, h1, h2 => ⟨seen, h1, h2, rfl, by simp⟩
  | l :: ls, flags, g, seen, h1, h2 => by
    rw [glueLoop]
    split
    · rename_i hf
      obtain ⟨s', k1, k2, k3, k4⟩ := glueLoop_spec p ls flags g seen h1 h2
      refine ⟨s', k1, k2, k3, fun v => ?_⟩
      rw [k4, List.map_cons, List.mem_cons]
      have := (h2 _).1 hf
      constructor
      · rintro (h | h)
        · exact .inl h
        · exact .inr (.inr h)
      · rintro (h | rfl | h)
        · exact .inl h
        · exact .inl this
        · exact .inr h
    · rename_i hf
      have hn : p.level l.var ∉ seen := fun h => hf ((h2 _).2 h)
      obtain ⟨s', k1, k2, k3, k4⟩ := glueLoop_spec p ls (put flags (p.level l.var) true) (g + 1) (p.level l.var :: seen)
        (List.nodup_cons.2 ⟨hn, h1⟩) (by
          intro v
          by_cases hv : v = p.level l.var
          · subst hv; simp [put]
          · simp [put, hv, h2])
      refine ⟨s', k1, k2, by simp only [List.length_cons] at k3; omega, fun v => ?_⟩
      rw [k4, List.map_cons, List.mem_cons, List.mem_cons]
      constructor
      · rintro ((h | h) | h)
        · exact .inr (.inl h)
        · exact .inl h
        · exact .inr (.inr h)
      · rintro (h | h | h)
        · exact .inl (.inr h)
        · exact .inl (.inl h)
        · exact .inr h

theorem put_false_fold (p : Pt) : ∀ (ls : List Lit) (f : Nat → Bool) (v : Nat),
    (ls.foldl (fun f lit => put f (p.level lit.var) false) f) v = true → f v = true ∧ v ∉ ls.map (fun l => p.level l.var)
  | [], f, v, h => ⟨h, by simp⟩
  | l :: ls, f, v, h => by
    rw [List.foldl_cons] at h
    obtain ⟨h1, h2⟩ := put_false_fold p ls _ v h
    by_cases hv : v = p.level l.var
    · subst hv; simp [put] at h1
    · simp only [put] at h1
      rw [if_neg hv] at h1
      refine ⟨h1, ?_⟩
      rw [List.map_cons, List.mem_cons]
      rintro (q | q)
      · exact hv q
      · exact h2 q

/-- With clean flags `compute_glue` counts the levels and leaves the flags clean. -/
theorem computeGlue_clean {p : Pt} {flags : Nat → Bool} (h : ∀ v, flags v = false) (ls : List Lit) :
    (computeGlue p flags ls).2 = levelCount p ls ∧ ∀ v, (computeGlue p flags ls).1 v = false := by
  obtain ⟨s', k1, k2, k3, k4⟩ := glueLoop_spec p ls flags 0 [] List.nodup_nil (by simp [h])
  unfold computeGlue
  simp only
  constructor
  · rw [show (glueLoop p ls flags 0).2 = s'.length by simpa using k3]
    refine List.Perm.length_eq ((List.perm_ext_iff_of_nodup k1 (List.nodup_dedup _)).2 (fun v => ?_))
    rw [k4, List.mem_dedup]; simp
  · intro v
    by_contra hc
    rw [Bool.not_eq_false] at hc
    obtain ⟨h1, h2⟩ := put_false_fold p ls _ v hc
    rw [k2, k4] at h1
    rcases h1 with h1 | h1
    · cases h1
    · exact h2 h1

theorem bumpClause_clean (ar : Arith α) (p : Pt) (c : Nat) {b : Db α × α × (Nat → Bool)} (h : ∀ v, b.2.2 v = false) :
    ∀ v, (bumpClause ar p c b).2.2 v = false := by
  unfold bumpClause
  simp only
  split <;> exact (computeGlue_clean h _).2

theorem bumpAll_clean (ar : Arith α) (p : Pt) : ∀ (cs : List Nat) {b : Db α × α × (Nat → Bool)}, (∀ v, b.2.2 v = false) →
    ∀ v, (cs.foldl (fun b c => bumpClause ar p c b) b).2.2 v = false
  | [], _, h => h
  | c :: cs, _, h => bumpAll_clean ar p cs (bumpClause_clean ar p c h)

namespace St

theorem addLearned_grow {e : Env α} {s s' : St α} {c : List Lit} (h : s.addLearned e c = .ok s') : Grow s s' := by
  unfold addLearned at h
  split at h
  · cases h; exact Grow.of rfl rfl rfl (fun q => by cases q)
  · cases h; exact Grow.of rfl rfl rfl id
  · cases h; exact Grow.of rfl rfl rfl id
  · simp only at h
    split at h
    · cases h
    · cases h
      refine ⟨fun q => ?_, rfl, List.prefix_refl _, id, Nat.le_refl _, fun _ _ h => h⟩
      exact (computeGlue_clean q _).2

theorem learn_grow {e : Env α} {s s' : St α} {c : Conflict} (h : s.learn e c = .ok s') : Grow s s' := by
  unfold learn at h
  obtain ⟨L, h1, h⟩ := bind_inv h
  obtain ⟨t, h2, h⟩ := bind_inv h
  refine Grow.trans ?_ ((emit_grow h2).trans (addLearned_grow h))
  exact ⟨fun q => bumpAll_clean e.car s.p L.involved q, rfl, List.prefix_refl _, id, Nat.le_refl _, fun _ _ h => h⟩

end St
end Varisat.Solver
