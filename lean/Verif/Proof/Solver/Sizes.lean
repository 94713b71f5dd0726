import Verif.Proof.Solver.NewVar
/-!
# How many variables there are

A new index is only used for a solver or user variable if all smaller ones are in use, so there are never more of them
than global variables.
-/
namespace Varisat.Solver

variable {α : Type} [LinearOrder α] {x : Vars}

/-- The number of indices in use, where `n` variables were created so far. -/
structure Sizes (n : Nat) (x : Vars) : Prop where
  ulen : x.gfu.len ≤ x.data.length
  slen : x.gfs.len ≤ x.data.length
  dlen : x.data.length ≤ n

theorem Sizes.set {n : Nat} {x y : Vars} {g : Nat} {d : VarData} (h : Sizes n x) (h1 : y.gfu.len = x.gfu.len := by rfl) (h2 : y.gfs.len = x.gfs.len := by rfl)
    (h3 : y.data = x.data.set g d := by rfl) : Sizes n y := by
  refine ⟨?_, ?_, ?_⟩ <;> simp only [h1, h2, h3, List.length_set]
  · exact h.ulen
  · exact h.slen
  · exact h.dlen

theorem setUserDefault_length (data : List VarData) (g : Nat) :
    (St.setUserDefault data g).length = max data.length (g + 1) := by
  unfold St.setUserDefault
  simp only [List.length_set, List.length_append, List.length_replicate]
  omega

/-- If all solver variables are in use and there is another global variable, there are fewer of them than of those. -/
theorem VInv.spare (hv : VInv x) {g : Nat} (hn : x.sfg.map g = none) (hg : g < x.data.length)
    (hfull : ∀ w, w < x.gfs.len → x.pres w) : x.gfs.len < x.data.length := by
  have h1 : ((List.range x.gfs.len).map fun w => (x.gfs.map w).getD 0).Nodup := by
    refine List.nodup_range.map_on fun w hw w' hw' he => ?_
    obtain ⟨k, hk⟩ := Option.isSome_iff_exists.1 (hfull w (List.mem_range.1 hw))
    obtain ⟨k', hk'⟩ := Option.isSome_iff_exists.1 (hfull w' (List.mem_range.1 hw'))
    rw [hk, hk'] at he
    obtain rfl : k = k' := he
    have e1 := (hv.gs k w).2 hk
    rw [(hv.gs k w').2 hk'] at e1
    exact (Option.some.inj e1).symm
  have h2 : ((List.range x.gfs.len).map fun w => (x.gfs.map w).getD 0) ⊆ (List.range x.data.length).erase g := by
    intro k hk
    obtain ⟨w, hw, rfl⟩ := List.mem_map.1 hk
    obtain ⟨k, hk⟩ := Option.isSome_iff_exists.1 (hfull w (List.mem_range.1 hw))
    rw [hk]
    obtain ⟨d, hd, -⟩ := hv.slive w k hk
    rw [List.nodup_range.mem_erase_iff]
    refine ⟨fun e => ?_, List.mem_range.2 (List.getElem?_eq_some_iff.1 hd).1⟩
    have := (hv.gs k w).2 hk
    rw [show k = g from e, hn] at this
    cases this
  have h3 := (List.subperm_of_subset h1 h2).length_le
  rw [List.length_map, List.length_range, List.length_erase_of_mem (List.mem_range.2 hg), List.length_range] at h3
  omega

/-- There is a user name for a hidden variable. -/
theorem VInv.user_room {x : Vars} (h : VInv x) {g : Nat} (hg : x.ufg.map g = none)
    (hgl : g < x.data.length) (hf : ∀ u < x.gfu.len, (x.gfu.map u).isSome = true) : x.gfu.len < x.data.length := by
  have h1 : ((List.range x.gfu.len).map fun u => (x.gfu.map u).getD 0).Nodup := by
    refine List.nodup_range.map_on fun u hu w hw he => ?_
    obtain ⟨k, hk⟩ := Option.isSome_iff_exists.1 (hf u (List.mem_range.1 hu))
    obtain ⟨k', hk'⟩ := Option.isSome_iff_exists.1 (hf w (List.mem_range.1 hw))
    rw [hk, hk'] at he
    obtain rfl : k = k' := he
    have e1 := (h.us u k).1 hk
    rw [(h.us w k).1 hk'] at e1
    exact (Option.some.inj e1).symm
  have h2 : ((List.range x.gfu.len).map fun u => (x.gfu.map u).getD 0) ⊆ (List.range x.data.length).erase g := by
    intro k hk
    obtain ⟨u, hu, rfl⟩ := List.mem_map.1 hk
    obtain ⟨k, hk⟩ := Option.isSome_iff_exists.1 (hf u (List.mem_range.1 hu))
    rw [hk]
    obtain ⟨d, hd, -⟩ := h.ulive u k hk
    rw [List.nodup_range.mem_erase_iff]
    refine ⟨fun e => ?_, List.mem_range.2 (List.getElem?_eq_some_iff.1 hd).1⟩
    have := (h.us u k).1 hk
    rw [show k = g from e, hg] at this
    cases this
  have h3 := (List.subperm_of_subset h1 h2).length_le
  rw [List.length_map, List.length_range, List.length_erase_of_mem (List.mem_range.2 hgl), List.length_range] at h3
  omega

/-- The index of a new global variable. -/
theorem St.chooseGlobal_le {e : Env α} {s : St α} (hpick : ∀ k n l y, e.pick k n l = some y → y ∈ l)
    (hfree : ∀ g ∈ s.vars.globalFree, g < s.vars.data.length) {u : Nat} (hu : u ≤ s.vars.data.length) :
    s.chooseGlobal e u ≤ s.vars.data.length := by
  unfold St.chooseGlobal
  split
  · split
    · exact hu
    · unfold St.nextGlobal
      cases hp : e.pick 0 s.log.length s.vars.globalFree with
      | none => exact Nat.le_refl _
      | some g => exact Nat.le_of_lt (hfree g (hpick _ _ _ _ hp))
  · exact hu

end Varisat.Solver
