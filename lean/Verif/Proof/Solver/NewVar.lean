import Verif.Proof.Solver.Solve
/-!
# New variables
-/
namespace Varisat.Solver

variable {α : Type} [LinearOrder α]
variable {F : List (List Lit)} {A : List Lit} {ids : Nat → Nat}

/-- Only variables not in use were changed. -/
structure VMore (x : Vars) (ids : Nat → Nat) (x' : Vars) (ids' : Nat → Nat) : Prop where
  gfs : ∀ v g, x.gfs.map v = some g → x'.gfs.map v = some g
  gfu : ∀ u g, x.gfu.map u = some g → x'.gfu.map u = some g
  data : ∀ (g : Nat) (d : VarData), x.data[g]? = some d → d.deleted = false → x'.data[g]? = some d
  ids : ∀ g, x.Live g → ids' g = ids g

theorem VMore.refl (x : Vars) (ids : Nat → Nat) : VMore x ids x ids :=
  ⟨fun _ _ h => h, fun _ _ h => h, fun _ _ h _ => h, fun _ _ => rfl⟩
theorem VMore.live {x x' : Vars} {i i' : Nat → Nat} (h : VMore x i x' i') {g : Nat} (hg : x.Live g) : x'.Live g := by
  obtain ⟨d, h1, h2⟩ := hg
  exact ⟨d, h.data g d h1 h2, h2⟩
theorem VMore.trans {x y z : Vars} {i j k : Nat → Nat} (h : VMore x i y j) (h' : VMore y j z k) : VMore x i z k :=
  ⟨fun v g hv => h'.gfs v g (h.gfs v g hv), fun u g hu => h'.gfu u g (h.gfu u g hu),
    fun g d h1 h2 => h'.data g d (h.data g d h1 h2) h2,
    fun g hg => (h'.ids g (h.live hg)).trans (h.ids g hg)⟩

theorem VMore.asmOk {x x' : Vars} {i i' : Nat → Nat} (h : VMore x i x' i') (hv : VInv x) {ls : List Lit} (ha : AsmOk x ls) :
    AsmOk x' ls := by
  intro l hl
  obtain ⟨g, d, h1, h2, h3⟩ := ha l hl
  obtain ⟨d', h4, h5⟩ := hv.slive _ _ h1
  obtain rfl : d' = d := by rw [h2] at h4; exact (Option.some.inj h4).symm
  exact ⟨g, d', h.gfs _ _ h1, h.data g d' h2 h5, h3⟩

theorem VMore.vholds {x x' : Vars} {i i' : Nat → Nat} (h : VMore x i x' i') (hv : VInv x) {l : Lit} (hl : x.pres l.var)
    {τ : Asg} : VHolds x' i' τ l ↔ VHolds x i τ l := by
  obtain ⟨g, hg⟩ := Option.isSome_iff_exists.1 hl
  unfold VHolds
  rw [hg, h.gfs _ _ hg]
  simp only [Option.some.injEq, exists_eq_left']
  rw [h.ids g (hv.slive _ _ hg)]

/-! ### A new global variable -/

/-- The data after `var_data_global_mut(global) = user_default()`. -/
theorem setUserDefault_get (data : List VarData) (g k : Nat) :
    (St.setUserDefault data g)[k]? =
      if k = g then some .userDefault
      else if k < data.length then data[k]?
      else if k < g + 1 then some {} else none := by
  unfold St.setUserDefault
  by_cases hk : k = g
  · subst hk
    rw [if_pos rfl, List.getElem?_set_self]
    simp; omega
  · rw [if_neg hk, List.getElem?_set_ne (Ne.symm hk)]
    by_cases h1 : k < data.length
    · rw [if_pos h1, List.getElem?_append_left h1]
    · rw [if_neg h1, List.getElem?_append_right (by omega), List.getElem?_replicate]
      by_cases h2 : k < g + 1
      · rw [if_pos h2, if_pos (by omega)]
      · rw [if_neg h2, if_neg (by omega)]

/-- The variables after mapping the user variable `u` to a new global variable `g`. -/
def Vars.newGlobal (x : Vars) (u g : Nat) : Vars :=
  { x with
    data := St.setUserDefault x.data g
    gfu := x.gfu.insert g u
    ufg := x.ufg.insert u g
    globalFree := x.globalFree.filter (· ≠ g)
    userFree := x.userFree.filter (· ≠ u) }

theorem VarMap.insert_eq {m : VarMap} {a b k : Nat} : (m.insert b a).map k = if k = a then some b else m.map k := rfl

section newGlobal
variable {x : Vars} {u g : Nat}

theorem Vars.newGlobal_data (hg : ¬ x.Live g) {k : Nat} {d : VarData} (hd : (x.newGlobal u g).data[k]? = some d) :
    (k = g ∧ d = .userDefault) ∨ (k ≠ g ∧ x.data[k]? = some d) ∨ (k ≠ g ∧ d = {}) := by
  have := setUserDefault_get x.data g k
  rw [show (x.newGlobal u g).data = St.setUserDefault x.data g from rfl, this] at hd
  by_cases h1 : k = g
  · rw [if_pos h1] at hd; exact .inl ⟨h1, (Option.some.inj hd).symm⟩
  rw [if_neg h1] at hd
  by_cases h2 : k < x.data.length
  · rw [if_pos h2] at hd; exact .inr (.inl ⟨h1, hd⟩)
  rw [if_neg h2] at hd
  by_cases h3 : k < g + 1
  · rw [if_pos h3] at hd; exact .inr (.inr ⟨h1, (Option.some.inj hd).symm⟩)
  · rw [if_neg h3] at hd; cases hd

theorem Vars.newGlobal_keep {k : Nat} {d : VarData} (hk : k ≠ g) (hd : x.data[k]? = some d) :
    (x.newGlobal u g).data[k]? = some d := by
  rw [show (x.newGlobal u g).data = St.setUserDefault x.data g from rfl, setUserDefault_get, if_neg hk,
    if_pos (List.getElem?_eq_some_iff.1 hd).1]
  exact hd

theorem Vars.newGlobal_self : (x.newGlobal u g).data[g]? = some .userDefault := by
  rw [show (x.newGlobal u g).data = St.setUserDefault x.data g from rfl, setUserDefault_get, if_pos rfl]

theorem Vars.newGlobal_live (hg : ¬ x.Live g) {k : Nat} : (x.newGlobal u g).Live k ↔ k = g ∨ x.Live k := by
  constructor
  · rintro ⟨d, h1, h2⟩
    rcases Vars.newGlobal_data hg h1 with ⟨h3, _⟩ | ⟨_, h3⟩ | ⟨_, rfl⟩
    · exact .inl h3
    · exact .inr ⟨d, h3, h2⟩
    · cases h2
  · rintro (rfl | ⟨d, h1, h2⟩)
    · exact ⟨_, Vars.newGlobal_self, rfl⟩
    · refine ⟨d, Vars.newGlobal_keep ?_ h1, h2⟩
      rintro rfl; exact hg ⟨d, h1, h2⟩

theorem VInv.newGlobal (h : VInv x) (hg : ¬ x.Live g) (hu : x.gfu.map u = none) (hul : u ≤ x.gfu.len) :
    VInv (x.newGlobal u g) := by
  have hng : x.ufg.map g = none := by
    cases hc : x.ufg.map g with
    | none => rfl
    | some u' =>
      obtain ⟨d, h1, h2, _⟩ := h.ulive u' g ((h.us u' g).2 hc)
      exact absurd ⟨d, h1, h2⟩ hg
  have hnl : ∀ k, x.Live k → k ≠ g := fun k hk he => hg (he ▸ hk)
  have hgfu : ∀ k, (x.newGlobal u g).gfu.map k = if k = u then some g else x.gfu.map k := fun k => rfl
  have hufg : ∀ k, (x.newGlobal u g).ufg.map k = if k = g then some u else x.ufg.map k := fun k => rfl
  have hlen : (x.newGlobal u g).gfu.len = max x.gfu.len (u + 1) := rfl
  refine ⟨?_, h.gs, ?_, h.slen, ?_, ?_, ?_, ?_, h.sfree, ?_⟩
  · intro k j
    rw [hgfu, hufg]
    by_cases h1 : k = u
    · rw [if_pos h1]
      by_cases h2 : j = g
      · rw [if_pos h2, h1, h2]; simp
      · rw [if_neg h2]
        constructor
        · intro h3; exact absurd (Option.some.inj h3).symm h2
        · intro h3
          rw [h1] at h3
          have := (h.us _ _).2 h3
          rw [hu] at this; cases this
    · rw [if_neg h1]
      by_cases h2 : j = g
      · rw [if_pos h2]
        constructor
        · intro h3
          rw [h2] at h3
          have := (h.us _ _).1 h3
          rw [hng] at this; cases this
        · intro h3; exact absurd (Option.some.inj h3).symm h1
      · rw [if_neg h2]; exact h.us k j
  · intro k j hk
    rw [hgfu] at hk
    rw [hlen]
    by_cases h1 : k = u
    · omega
    · rw [if_neg h1] at hk
      have := h.ulen k j hk; omega
  · intro k j hk
    rw [hgfu] at hk
    by_cases h1 : k = u
    · rw [if_pos h1] at hk
      obtain rfl := Option.some.inj hk
      exact ⟨_, Vars.newGlobal_self, rfl, by simp [VarData.userDefault]⟩
    · rw [if_neg h1] at hk
      obtain ⟨d, h2, h3, h4⟩ := h.ulive k j hk
      exact ⟨d, Vars.newGlobal_keep (hnl j ⟨d, h2, h3⟩) h2, h3, h4⟩
  · intro k j hk
    exact (Vars.newGlobal_live hg).2 (.inr (h.slive k j hk))
  · intro k d h1 h2 h3
    rw [hufg]
    rcases Vars.newGlobal_data hg h1 with ⟨h4, _⟩ | ⟨h4, h5⟩ | ⟨_, rfl⟩
    · rw [if_pos h4]; rfl
    · rw [if_neg h4]; exact h.hid k d h5 h2 h3
    · cases h2
  · intro k
    show k ∈ x.userFree.filter (· ≠ u) ↔ _
    rw [List.mem_filter, h.ufree, hgfu, hlen]
    by_cases h1 : k = u
    · simp [h1]
    · simp only [h1, if_false, ne_eq, not_false_eq_true, decide_true, and_true]
      constructor
      · rintro ⟨h2, h3⟩; exact ⟨by omega, h3⟩
      · rintro ⟨h2, h3⟩; exact ⟨by omega, h3⟩
  · intro k hk
    obtain ⟨hk1, hk2⟩ := List.mem_filter.1 (show k ∈ x.globalFree.filter (· ≠ g) from hk)
    obtain ⟨d, h1, h2⟩ := h.gfree k hk1
    exact ⟨d, Vars.newGlobal_keep (by simpa using hk2) h1, h2⟩

theorem VMore.newGlobal (hg : ¬ x.Live g) (hu : x.gfu.map u = none) (ids : Nat → Nat) (i : Nat) :
    VMore x ids (x.newGlobal u g) (put ids g i) := by
  refine ⟨fun _ _ h => h, ?_, ?_, ?_⟩
  · intro k j hk
    show (if k = u then some g else x.gfu.map k) = some j
    rw [if_neg]
    · exact hk
    · rintro rfl; rw [hu] at hk; cases hk
  · intro k d h1 h2
    exact Vars.newGlobal_keep (by rintro rfl; exact hg ⟨d, h1, h2⟩) h1
  · intro k hk
    exact put_ne _ _ (by rintro rfl; exact hg hk)

/-- Changing the value of a variable that does not occur. -/
theorem cnfSat_put {F : List (List Lit)} {τ : Asg} {i : Nat} (b : Bool) (hi : ∀ c ∈ F, ∀ l ∈ c, l.var ≠ i) :
    cnfSat (put τ i b) F ↔ cnfSat τ F := by
  have key : ∀ c ∈ F, ∀ l ∈ c, (l.holds (put τ i b) ↔ l.holds τ) := by
    intro c hc l hl
    unfold Lit.holds
    rw [put_ne _ _ (hi c hc l hl)]
  constructor
  · intro h c hc
    obtain ⟨l, hl, h1⟩ := h c hc
    exact ⟨l, hl, (key c hc l hl).1 h1⟩
  · intro h c hc
    obtain ⟨l, hl, h1⟩ := h c hc
    exact ⟨l, hl, (key c hc l hl).2 h1⟩

theorem Core.newGlobal {bin : Lit → List Lit} {w : Wl} {db : Db α} {p : Pt} (h : Core F ids bin w db x p) (hv : VInv x)
    (hg : ¬ x.Live g) {i : Nat} (hF : ∀ c ∈ F, ∀ l ∈ c, l.var ≠ i) (hi : ∀ k, x.Live k → ids k ≠ i) :
    Core F (put ids g i) bin w db (x.newGlobal u g) p := by
  have hlift : ∀ σ σ' : Asg, (∀ k, x.Live k → σ' k = σ k) → lift (x.newGlobal u g) p σ' = lift x p σ := by
    intro σ σ' hσ
    funext v
    unfold lift
    show (match x.gfs.map v with | some g => σ' g | none => _) = _
    cases hk : x.gfs.map v with
    | none => rfl
    | some k => exact hσ k (hv.slive v k hk)
  have hne : ∀ k, x.Live k → k ≠ g := fun k hk he => hg (he ▸ hk)
  refine ⟨h.c, h.wok, h.dbi, ?_, ?_, ?_, ?_⟩
  · intro τ hτ
    obtain ⟨a, b, c⟩ := h.s1 τ hτ
    have hl := hlift (fun g => τ (ids g)) (fun k => τ (put ids g i k)) (fun k hk => by
      show τ (put ids g i k) = _
      rw [put_ne _ _ (hne k hk)])
    refine ⟨by rw [hl]; exact a, by rw [hl]; exact b, ?_⟩
    intro k d b' h1 h2 h3
    rcases Vars.newGlobal_data hg h1 with ⟨_, rfl⟩ | ⟨h4, h5⟩ | ⟨_, rfl⟩
    · cases h3
    · show τ (put ids g i k) = b'
      rw [put_ne _ _ h4]; exact c k d b' h5 h2 h3
    · cases h2
  · rintro σ ⟨a, b, c⟩
    rw [hlift σ σ (fun _ _ => rfl)] at a b
    obtain ⟨τ, h1, h2⟩ := h.s2 σ ⟨a, b, fun k d b' h1 h2 h3 => c k d b' (Vars.newGlobal_keep (hne k ⟨d, h1, h2⟩) h1) h2 h3⟩
    refine ⟨put τ i (σ g), (cnfSat_put _ hF).2 h1, ?_⟩
    intro k hk
    rcases (Vars.newGlobal_live hg).1 hk with rfl | hk
    · rw [put_same, put_same]
    · rw [put_ne _ _ (hne k hk), put_ne _ _ (hi k hk)]
      exact h2 k hk
  · intro v k d b' h1 h2 h3
    rcases Vars.newGlobal_data hg h2 with ⟨_, rfl⟩ | ⟨_, h5⟩ | ⟨_, rfl⟩
    · cases h3
    · exact h.unit v k d b' h1 h5 h3
    · cases h3
  · intro v k d h1 h2 h3
    obtain ⟨d', h4, h5⟩ := hv.slive v k h1
    have := Vars.newGlobal_keep (u := u) (hne k ⟨d', h4, h5⟩) h4
    rw [h2] at this
    obtain rfl := Option.some.inj this
    exact h.iso v k d h1 h4 h3

end newGlobal

/-! ### A new solver variable -/

/-- The variables after mapping the new solver variable `v` to `g`. -/
def Vars.newSolver (x : Vars) (v g : Nat) : Vars :=
  { x with
    sfg := x.sfg.insert v g
    gfs := x.gfs.insert g v
    solverFree := x.solverFree.filter (· ≠ v) }

/-- The assignment after the initialization of `v`. -/
def Pt.initVar (p : Pt) (v : Nat) (unit : Option Bool) : Pt :=
  let p := { p with value := put p.value v unit }
  if unit.isSome then p.updateRemovedUnit v else p

section newSolver
variable {x : Vars} {v g : Nat}

theorem VInv.newSolver (h : VInv x) (hg : x.Live g) (hn : x.sfg.map g = none) (hv : x.gfs.map v = none)
    (hvl : v ≤ x.gfs.len) : VInv (x.newSolver v g) := by
  have hgfs : ∀ k, (x.newSolver v g).gfs.map k = if k = v then some g else x.gfs.map k := fun k => rfl
  have hsfg : ∀ k, (x.newSolver v g).sfg.map k = if k = g then some v else x.sfg.map k := fun k => rfl
  have hlen : (x.newSolver v g).gfs.len = max x.gfs.len (v + 1) := rfl
  refine ⟨h.us, ?_, h.ulen, ?_, h.ulive, ?_, h.hid, h.ufree, ?_, h.gfree⟩
  · intro j k
    rw [hgfs, hsfg]
    by_cases h1 : k = v
    · rw [if_pos h1]
      by_cases h2 : j = g
      · rw [if_pos h2, h1, h2]; simp
      · rw [if_neg h2]
        constructor
        · intro h3
          rw [h1] at h3
          have := (h.gs _ _).1 h3
          rw [hv] at this; cases this
        · intro h3; exact absurd (Option.some.inj h3).symm h2
    · rw [if_neg h1]
      by_cases h2 : j = g
      · rw [if_pos h2]
        constructor
        · intro h3; exact absurd (Option.some.inj h3).symm h1
        · intro h3
          rw [h2] at h3
          have := (h.gs _ _).2 h3
          rw [hn] at this; cases this
      · rw [if_neg h2]; exact h.gs j k
  · intro k j hk
    rw [hgfs] at hk
    rw [hlen]
    by_cases h1 : k = v
    · omega
    · rw [if_neg h1] at hk
      have := h.slen k j hk; omega
  · intro k j hk
    rw [hgfs] at hk
    by_cases h1 : k = v
    · rw [if_pos h1] at hk
      obtain rfl := Option.some.inj hk
      exact hg
    · rw [if_neg h1] at hk
      exact h.slive k j hk
  · intro k
    show k ∈ x.solverFree.filter (· ≠ v) ↔ _
    rw [List.mem_filter, h.sfree, hgfs, hlen]
    by_cases h1 : k = v
    · simp [h1]
    · simp only [h1, if_false, ne_eq, not_false_eq_true, decide_true, and_true]
      constructor
      · rintro ⟨h2, h3⟩; exact ⟨by omega, h3⟩
      · rintro ⟨h2, h3⟩; exact ⟨by omega, h3⟩

theorem VMore.newSolver (hv : x.gfs.map v = none) (ids : Nat → Nat) : VMore x ids (x.newSolver v g) ids := by
  refine ⟨?_, fun _ _ h => h, fun _ _ h _ => h, fun _ _ => rfl⟩
  intro k j hk
  show (if k = v then some g else x.gfs.map k) = some j
  rw [if_neg]
  · exact hk
  · rintro rfl; rw [hv] at hk; cases hk

theorem Pt.initVar_fields (p : Pt) (v : Nat) (b : Option Bool) :
    (p.initVar v b).trail = p.trail ∧ (p.initVar v b).decisions = p.decisions ∧ (p.initVar v b).qhead = p.qhead ∧
    (p.initVar v b).value = put p.value v b ∧ (∀ k, k ≠ v → (p.initVar v b).node k = p.node k) ∧
    (b ≠ none → ((p.initVar v b).node v).depth = none) ∧ (p.initVar v b).last = p.last ∧
    (p.initVar v b).unitsRemoved = p.unitsRemoved := by
  cases b with
  | none => exact ⟨rfl, rfl, rfl, rfl, fun _ _ => rfl, fun h => absurd rfl h, rfl, rfl⟩
  | some b =>
    refine ⟨rfl, rfl, rfl, rfl, fun k hk => put_ne _ _ hk, fun _ => ?_, rfl, rfl⟩
    show (put p.node v _ v).depth = none
    rw [put_same]

theorem Pt.Ok.initVar {p : Pt} (h : p.Ok) {v : Nat} {b : Option Bool} (hv : ∀ l ∈ p.trail, l.var ≠ v) :
    (p.initVar v b).Ok := by
  obtain ⟨h1, h2, h3, h4, h5, h6, _, _⟩ := Pt.initVar_fields p v b
  constructor
  · intro l hl; rw [h1] at hl; rw [h4, put_ne _ _ (hv l hl)]; exact h.val l hl
  · rw [h1]; exact h.nodup
  · intro k l hk
    unfold Pt.At at hk; rw [h1] at hk
    rw [h5 _ (hv l (List.mem_of_getElem? hk))]; exact h.depth k l hk
  · intro k l hk
    unfold Pt.At at hk; rw [h1] at hk
    unfold Pt.level
    rw [h5 _ (hv l (List.mem_of_getElem? hk)), h2]; exact h.level k l hk
  · intro k hk
    rw [h4] at hk
    rw [h1]
    by_cases hkv : k = v
    · rw [hkv, put_same] at hk
      rw [hkv]; exact .inr (h6 hk)
    · rw [put_ne _ _ hkv] at hk
      rw [h5 k hkv]; exact h.off k hk
  · rw [h2]; exact h.sorted
  · rw [h1, h2]; exact h.dlt
  · rw [h1, h3]; exact h.qle
  · rw [h2, h3]; exact h.dq

theorem Core.newSolver {bin : Lit → List Lit} {w : Wl} {db : Db α} {p : Pt} (h : Core F ids bin w db x p) 
    (hv : x.gfs.map v = none) {d : VarData} (hd : x.data[g]? = some d) (hdel : d.deleted = false) :
    Core F ids bin w db (x.newSolver v g) (p.initVar v d.unit) := by
  have hgfs : ∀ k, (x.newSolver v g).gfs.map k = if k = v then some g else x.gfs.map k := fun k => rfl
  have hnp : ∀ k, x.pres k → k ≠ v := by
    rintro k hk rfl; unfold Vars.pres at hk; rw [hv] at hk; cases hk
  have hpres : ∀ k, x.pres k → (x.newSolver v g).pres k := by
    intro k hk; unfold Vars.pres; rw [hgfs, if_neg (hnp k hk)]; exact hk
  have htr : ∀ l ∈ p.trail, l.var ≠ v := fun l hl => hnp _ (h.c.pres l hl)
  obtain ⟨h1, h2, h3, h4, h5, h6, _, _⟩ := Pt.initVar_fields p v d.unit
  have hok := h.c.tr.initVar (b := d.unit) htr
  have hat : ∀ k l, (p.initVar v d.unit).At k l ↔ p.At k l := by intro k l; unfold Pt.At; rw [h1]
  have hatt : ∀ k, k ≠ v → p.Att k → (p.initVar v d.unit).Att k := by
    intro k hk ha hn
    rw [h4, put_ne _ _ hk] at hn
    rw [h1]; exact ha hn
  have hlift : ∀ σ k, k ≠ v → lift (x.newSolver v g) (p.initVar v d.unit) σ k = lift x p σ k := by
    intro σ k hk
    unfold lift
    rw [hgfs, if_neg hk, h4, put_ne _ _ hk]
  have hlv : ∀ σ, lift (x.newSolver v g) (p.initVar v d.unit) σ v = σ g := by
    intro σ; unfold lift; rw [hgfs, if_pos rfl]
  have hus : ∀ k, (cls bin db).Used k → k ≠ v := by
    rintro k (⟨c, hc, l, hl, rfl⟩ | ⟨l, m, hm, rfl⟩)
    · exact hnp _ (h.c.vars c hc l hl).1
    · exact hnp _ (h.c.binVars l m hm).1
  have hroot : ∀ l : Lit, l.var ≠ v → ((p.initVar v d.unit).Root l ↔ p.Root l) := by
    intro l hl
    unfold Pt.Root Pt.isTrue
    rw [h4, put_ne _ _ hl, h2, h5 _ hl]
    simp only [hat]
  refine ⟨⟨hok, h.c.len, h.c.nodup, ?_, h.c.binSym, h.c.binNe, ?_, ?_, ?_, ?_⟩, h.wok, h.dbi, ?_, ?_, ?_, ?_⟩
  · intro c hc l hl
    obtain ⟨a, b⟩ := h.c.vars c hc l hl
    exact ⟨hpres _ a, hatt _ (hnp _ a) b⟩
  · intro l m hm
    obtain ⟨a, b⟩ := h.c.binVars l m hm
    exact ⟨hpres _ a, hatt _ (hnp _ a) b⟩
  · intro l hl; rw [h1] at hl; exact hpres _ (h.c.pres l hl)
  · intro k l hk hkd
    rw [hat] at hk; rw [h2] at hkd
    unfold Pt.reason
    rw [h5 _ (htr l hk.mem)]; exact h.c.dec k l hk hkd
  · intro k l hk
    rw [hat] at hk
    have := h.c.rs k l hk
    unfold ReasonAt Pt.reason at *
    rw [h5 _ (htr l hk.mem), h2]
    simp only [hat]
    exact this
  · intro τ hτ
    obtain ⟨a, b, c⟩ := h.s1 τ hτ
    refine ⟨Cl.Sat.congr (C := cls bin db) h.c.binSym (fun k hk => (hlift _ k (hus k hk)).symm) a, ?_, c⟩
    intro l hl
    by_cases hlv' : l.var = v
    · unfold Lit.holds
      rw [hlv', hlv]
      have := Pt.isTrue_iff.1 hl.1
      rw [h4, hlv', put_same] at this
      exact c g d _ hd hdel this
    · have := b l ((hroot l hlv').1 hl)
      unfold Lit.holds at *
      rw [hlift _ _ hlv']; exact this
  · rintro σ ⟨a, b, c⟩
    refine h.s2 σ ⟨Cl.Sat.congr (C := irrs bin db) h.c.binSym (fun k hk => hlift _ k (hus k (irrs_used hk))) a, ?_, c⟩
    intro l hl
    by_cases hlv' : l.var = v
    · unfold Lit.holds lift
      rw [hlv', hv]
      have := Pt.isTrue_iff.1 hl.1
      rw [hlv'] at this
      simp only
      rw [this]; rfl
    · have := b l ((hroot l hlv').2 hl)
      unfold Lit.holds at *
      rw [hlift _ _ hlv'] at this; exact this
  · intro k j e b hk he hb
    rw [hgfs] at hk
    by_cases hkv : k = v
    · rw [if_pos hkv] at hk
      obtain rfl := Option.some.inj hk
      have he : x.data[g]? = some e := he
      rw [hd] at he
      obtain rfl := Option.some.inj he
      refine ⟨?_, .inr ?_⟩
      · rw [Pt.isTrue_iff, h4]
        simp only [Lit.var_mk', Lit.isNeg_mk', Bool.not_not]
        rw [hkv, put_same, hb]
      · simp only [Lit.var_mk']
        rw [hkv]; exact h6 (by rw [hb]; simp)
    · rw [if_neg hkv] at hk
      exact (hroot _ (by simpa using hkv)).2 (h.unit k j e b hk he hb)
  · intro k j e hk he hi hu
    rw [hgfs] at hk
    rw [if_neg (hus k hu)] at hk
    exact h.iso k j e hk he hi hu

theorem Prop2.initVar {bin : Lit → List Lit} {db : Db α} {p : Pt} (h : Prop2 bin db p) (hc : CInv x.pres (cls bin db) p)
    (hv : ¬ x.pres v) (b : Option Bool) : Prop2 bin db (p.initVar v b) := by
  have hnp : ∀ k, x.pres k → k ≠ v := by rintro k hk rfl; exact hv hk
  obtain ⟨h1, h2, h3, h4, h5, h6, _, _⟩ := Pt.initVar_fields p v b
  have hdone : ∀ l, (p.initVar v b).Done l ↔ p.Done l := by
    intro l; unfold Pt.Done Pt.At; rw [h1, h3]
  have htrue : ∀ l : Lit, x.pres l.var → (p.initVar v b).isTrue l = p.isTrue l := by
    intro l hl; unfold Pt.isTrue; rw [h4, put_ne _ _ (hnp _ hl)]
  have hlev : ∀ k, x.pres k → (p.initVar v b).level k = p.level k := by
    intro k hk; unfold Pt.level; rw [h5 _ (hnp _ hk)]
  constructor
  · intro l hl m hm
    rw [hdone] at hl
    have hlp : x.pres l.var := by obtain ⟨k, _, hk⟩ := hl; exact hc.pres l hk.mem
    have hmp := (hc.binVars l m hm).1
    rw [htrue m hmp, hlev _ hmp, hlev _ hlp]
    exact h.b l hl m hm
  · intro c hcl y hy hd
    rw [hdone] at hd
    have hyp := (hc.vars c hcl y (List.mem_of_mem_take hy)).1
    rw [hlev _ hyp]
    rcases h.w c hcl y hy hd with ⟨t, ht, h7, h8⟩ | h7
    · have htp := (hc.vars c hcl t ht).1
      exact .inl ⟨t, ht, by rw [htrue t htp]; exact h7, by rw [hlev _ htp]; exact h8⟩
    · exact .inr h7

end newSolver

end Varisat.Solver
