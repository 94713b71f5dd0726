import Verif.Proof.Solver.Simplify
/-!
# Recording units, removing solver variables and deleting global variables
-/
namespace Varisat.Solver

variable {α : Type} [LinearOrder α]
variable {F : List (List Lit)} {A : List Lit} {ids : Nat → Nat}

/-- Satisfaction depends on the variables in use only. -/
theorem Cl.Sat.congr {C : Cl} (hs : ∀ l m, m ∈ C.bin l → l.neg ∈ C.bin m.neg) {a b : Asg}
    (hab : ∀ v, C.Used v → a v = b v) (h : C.Sat a) : C.Sat b := by
  have hh : ∀ l : Lit, C.Used l.var → (l.holds a ↔ l.holds b) := by
    intro l hl; unfold Lit.holds; rw [hab _ hl]
  refine ⟨fun l m hm hl => ?_, fun c hc => ?_⟩
  · rw [← hh m (.inr ⟨l, m, hm, rfl⟩)]
    refine h.bin l m hm ((hh l (.inr ⟨m.neg, l.neg, hs l m hm, by simp⟩)).2 hl)
  · obtain ⟨l, hl, hla⟩ := h.long c hc
    exact ⟨l, hl, (hh l (.inl ⟨c, hc, l, hl, rfl⟩)).1 hla⟩

theorem irrs_used {bin : Lit → List Lit} {db : Db α} {v : Nat} (h : (irrs bin db).Used v) : (cls bin db).Used v := by
  rcases h with ⟨c, hc, l, hl, rfl⟩ | h
  · exact .inl ⟨c, hc.1, l, hl, rfl⟩
  · exact .inr h

/-- Changing only the variable data, with the same variables alive, hidden and assumed. -/
structure DataSame (x : Vars) (data : List VarData) : Prop where
  some_ : ∀ (g : Nat) (d' : VarData), data[g]? = some d' → ∃ d : VarData, x.data[g]? = some d ∧ d'.deleted = d.deleted ∧ d'.mode = d.mode ∧ d'.assumed = d.assumed
  none_ : ∀ (g : Nat) (d : VarData), x.data[g]? = some d → ∃ d' : VarData, data[g]? = some d' ∧ d'.deleted = d.deleted ∧ d'.mode = d.mode ∧ d'.assumed = d.assumed

theorem DataSame.live {x : Vars} {data : List VarData} (h : DataSame x data) {g : Nat} :
    Vars.Live { x with data := data } g ↔ x.Live g := by
  constructor
  · rintro ⟨d', h1, h2⟩
    obtain ⟨d, h3, h4, _⟩ := h.some_ g d' h1
    exact ⟨d, h3, by rw [← h4]; exact h2⟩
  · rintro ⟨d, h1, h2⟩
    obtain ⟨d', h3, h4, _⟩ := h.none_ g d h1
    exact ⟨d', h3, by rw [h4]; exact h2⟩

theorem VInv.data {x : Vars} (h : VInv x) {data : List VarData} (hd : DataSame x data) : VInv { x with data := data } := by
  refine ⟨h.us, h.gs, h.ulen, h.slen, ?_, ?_, ?_, h.ufree, h.sfree, ?_⟩
  · intro u g hu
    obtain ⟨d, h1, h2, h3⟩ := h.ulive u g hu
    obtain ⟨d', h4, h5, h6, _⟩ := hd.none_ g d h1
    exact ⟨d', h4, by rw [h5]; exact h2, by rw [h6]; exact h3⟩
  · intro v g hv; exact hd.live.2 (h.slive v g hv)
  · intro g d' h1 h2 h3
    obtain ⟨d, h4, h5, h6, _⟩ := hd.some_ g d' h1
    exact h.hid g d h4 (by rw [← h5]; exact h2) (by rw [← h6]; exact h3)
  · intro g hg
    obtain ⟨d, h1, h2⟩ := h.gfree g hg
    obtain ⟨d', h4, h5, _⟩ := hd.none_ g d h1
    exact ⟨d', h4, by rw [h5]; exact h2⟩

theorem AsmOk.data {x : Vars} {ls : List Lit} (h : AsmOk x ls) {data : List VarData} (hd : DataSame x data) :
    AsmOk { x with data := data } ls := by
  intro l hl
  obtain ⟨g, d, h1, h2, h3, h4⟩ := h l hl
  obtain ⟨d', h5, h6, h7, h8⟩ := hd.none_ g d h2
  exact ⟨g, d', h1, h5, by rw [h8]; exact h3, by rw [h7]; exact h4⟩

theorem VInv.inj {x : Vars} (h : VInv x) {v w g : Nat} (hv : x.gfs.map v = some g) (hw : x.gfs.map w = some g) : v = w := by
  have h1 := (h.gs g v).2 hv
  have h2 := (h.gs g w).2 hw
  rw [h1] at h2; simpa using h2

/-- Recording a fixed variable. -/
theorem Core.record {bin : Lit → List Lit} {w : Wl} {db : Db α} {x : Vars} {p : Pt} (h : Core F ids bin w db x p)
    (hv : VInv x) {v g : Nat} {d : VarData} {b : Bool} (hg : x.gfs.map v = some g) (hdg : x.data[g]? = some d)
    (hr : p.Root (Lit.mk' v b)) (hus : ¬ (cls bin db).Used v) :
    Core F ids bin w db { x with data := x.data.set g { d with unit := some b, isolated := true } } p := by
  have hget : ∀ k, (x.data.set g { d with unit := some b, isolated := true })[k]? =
      if k = g then some { d with unit := some b, isolated := true } else x.data[k]? := by
    intro k
    by_cases hk : k = g
    · subst hk
      rw [if_pos rfl, List.getElem?_set_self (List.getElem?_eq_some_iff.1 hdg).1]
    · rw [if_neg hk, List.getElem?_set_ne (Ne.symm hk)]
  have hl : ∀ k, Vars.Live { x with data := x.data.set g { d with unit := some b, isolated := true } } k ↔ x.Live k := by
    intro k
    unfold Vars.Live
    simp only [hget]
    by_cases hk : k = g
    · subst hk; simp [hdg]
    · simp [hk]
  have hval : p.value v = some b := by
    have := Pt.isTrue_iff.1 hr.1
    simpa using this
  refine ⟨h.c, h.wok, h.dbi, ?_, ?_, ?_, ?_⟩
  · intro τ hτ
    obtain ⟨h1, h2, h3⟩ := h.s1 τ hτ
    refine ⟨h1, h2, ?_⟩
    intro k e c h4 h5 h6
    rw [hget] at h4
    by_cases hk : k = g
    · subst hk
      rw [if_pos rfl] at h4
      obtain rfl := Option.some.inj h4
      simp only [Option.some.injEq] at h6
      subst h6
      have := h2 _ hr
      unfold Lit.holds at this
      rw [Lit.var_mk', Lit.isNeg_mk', lift_pres hg] at this
      simpa using this
    · rw [if_neg hk] at h4; exact h3 k e c h4 h5 h6
  · intro σ ⟨h1, h2, h3⟩
    suffices hH : Holds (irrs bin db) x p σ by
      obtain ⟨τ, t1, t2⟩ := h.s2 σ hH
      exact ⟨τ, t1, fun k hk => t2 k ((hl k).1 hk)⟩
    refine ⟨h1, h2, ?_⟩
    intro k e c h4 h5 h6
    by_cases hk : k = g
    · subst hk
      rw [hdg] at h4
      obtain rfl := Option.some.inj h4
      have hroot := h.unit v k d c hg hdg h6
      have := Pt.isTrue_iff.1 hroot.1
      simp only [Lit.var_mk', Lit.isNeg_mk', hval, Bool.not_not, Option.some.injEq] at this
      subst this
      refine h3 k { d with unit := some b, isolated := true } b ?_ h5 rfl
      show (x.data.set k _)[k]? = _
      rw [hget, if_pos rfl]
    · refine h3 k e c ?_ h5 h6
      show (x.data.set g _)[k]? = _
      rw [hget, if_neg hk]; exact h4
  · intro u k e c h4 h5 h6
    rw [hget] at h5
    by_cases hk : k = g
    · subst hk
      rw [if_pos rfl] at h5
      obtain rfl := Option.some.inj h5
      simp only [Option.some.injEq] at h6
      subst h6
      rw [hv.inj h4 hg]; exact hr
    · rw [if_neg hk] at h5; exact h.unit u k e c h4 h5 h6
  · intro u k e h4 h5 h6
    rw [hget] at h5
    by_cases hk : k = g
    · subst hk; rw [hv.inj h4 hg]; exact hus
    · rw [if_neg hk] at h5; exact h.iso u k e h4 h5 h6

/-- The variables without solver variable `v` of `g`. -/
def Vars.unmap (x : Vars) (v g : Nat) : Vars :=
  { x with
    gfs := x.gfs.remove v
    sfg := x.sfg.remove g
    solverFree := x.solverFree ++ [v] }

theorem VarMap.remove_eq {m : VarMap} {a k y : Nat} : (m.remove a).map k = some y ↔ k ≠ a ∧ m.map k = some y := by
  unfold VarMap.remove put
  simp only
  by_cases h : k = a
  · simp [h]
  · simp [h]

theorem VInv.unmap {x : Vars} (h : VInv x) {v g : Nat} (hg : x.gfs.map v = some g) : VInv (x.unmap v g) := by
  refine ⟨h.us, ?_, h.ulen, ?_, h.ulive, ?_, h.hid, h.ufree, ?_, h.gfree⟩
  · intro k u
    show (x.sfg.remove g).map k = some u ↔ (x.gfs.remove v).map u = some k
    rw [VarMap.remove_eq, VarMap.remove_eq, h.gs]
    constructor
    · rintro ⟨h1, h2⟩
      refine ⟨?_, h2⟩
      rintro rfl; rw [hg] at h2; exact h1 (Option.some.inj h2).symm
    · rintro ⟨h1, h2⟩
      refine ⟨?_, h2⟩
      rintro rfl; exact h1 (h.inj h2 hg)
  · intro u k hk
    exact h.slen u k (VarMap.remove_eq.1 hk).2
  · intro u k hk
    exact h.slive u k (VarMap.remove_eq.1 hk).2
  · intro u
    show u ∈ x.solverFree ++ [v] ↔ u < x.gfs.len ∧ (x.gfs.remove v).map u = none
    have h1 : (x.gfs.remove v).map u = if u = v then none else x.gfs.map u := rfl
    rw [List.mem_append, h.sfree, h1]
    by_cases hu : u = v
    · subst hu; simp; exact h.slen _ _ hg
    · simp [hu]

theorem AsmOk.unmap {x : Vars} {ls : List Lit} (h : AsmOk x ls) {v g : Nat} {d : VarData} (hg : x.gfs.map v = some g)
    (hd : x.data[g]? = some d) (ha : d.assumed = false) : AsmOk (x.unmap v g) ls ∧
    ∀ l ∈ ls, (x.unmap v g).gfs.map l.var = x.gfs.map l.var := by
  have key : ∀ l ∈ ls, l.var ≠ v := by
    rintro l hl rfl
    obtain ⟨g', d', h1, h2, h3, _⟩ := h l hl
    rw [hg] at h1
    obtain rfl := Option.some.inj h1
    rw [hd] at h2
    obtain rfl := Option.some.inj h2
    rw [ha] at h3; cases h3
  constructor
  · intro l hl
    obtain ⟨g', d', h1, h2, h3, h4⟩ := h l hl
    exact ⟨g', d', VarMap.remove_eq.2 ⟨key l hl, h1⟩, h2, h3, h4⟩
  · intro l hl
    show put x.gfs.map v none l.var = _
    rw [put_ne _ _ (key l hl)]

/-- Removing a solver variable. -/
theorem Core.unmap {bin : Lit → List Lit} {w : Wl} {db : Db α} {x : Vars} {p : Pt} (h : Core F ids bin w db x p)
    (ht : p.trail = []) {v g : Nat} {d : VarData} (hg : x.gfs.map v = some g) (hd : x.data[g]? = some d)
    (hdel : d.deleted = false)
    (hi : d.isolated = true) (hval : ∀ b, p.value v = some b → d.unit = some b) :
    Core F ids bin w db (x.unmap v g) p := by
  have hus := h.iso v g d hg hd hi
  have hne : ∀ u, (cls bin db).Used u → u ≠ v := fun u hu he => hus (he ▸ hu)
  have hgm : ∀ u, u ≠ v → (x.unmap v g).gfs.map u = x.gfs.map u := fun u hu => put_ne _ _ hu
  have hgv : (x.unmap v g).gfs.map v = none := put_same ..
  have hpres : ∀ u, (x.unmap v g).pres u ↔ u ≠ v ∧ x.pres u := by
    intro u
    unfold Vars.pres
    by_cases hu : u = v
    · subst hu; rw [hgv]; simp
    · rw [hgm u hu]; simp [hu]
  have hlift : ∀ σ u, u ≠ v → lift (x.unmap v g) p σ u = lift x p σ u := by
    intro σ u hu
    unfold lift
    rw [hgm u hu]
  have hliftv : ∀ σ, lift (x.unmap v g) p σ v = (p.value v).getD false := by
    intro σ; unfold lift; rw [hgv]
  refine ⟨⟨h.c.tr, h.c.len, h.c.nodup, ?_, h.c.binSym, h.c.binNe, ?_, ?_, h.c.dec, h.c.rs⟩, h.wok, h.dbi, ?_, ?_, ?_, ?_⟩
  · intro c hc l hl
    obtain ⟨h1, h2⟩ := h.c.vars c hc l hl
    exact ⟨(hpres _).2 ⟨hne _ (.inl ⟨c, hc, l, hl, rfl⟩), h1⟩, h2⟩
  · intro l m hm
    obtain ⟨h1, h2⟩ := h.c.binVars l m hm
    exact ⟨(hpres _).2 ⟨hne _ (.inr ⟨l, m, hm, rfl⟩), h1⟩, h2⟩
  · intro l hl; rw [ht] at hl; simp at hl
  · intro τ hτ
    obtain ⟨h1, h2, h3⟩ := h.s1 τ hτ
    refine ⟨h1.congr h.c.binSym (fun u hu => (hlift _ u (hne u hu)).symm), ?_, h3⟩
    intro l hl
    by_cases hlv : l.var = v
    · unfold Lit.holds
      rw [hlv, hliftv, ← hlv, Pt.isTrue_iff.1 hl.1]; rfl
    · have := h2 l hl
      unfold Lit.holds at *
      rw [hlift _ _ hlv]; exact this
  · intro σ ⟨h1, h2, h3⟩
    have h3' : ∀ g d b, x.data[g]? = some d → d.deleted = false → d.unit = some b → σ g = b := h3
    refine h.s2 σ ⟨Cl.Sat.congr (C := irrs bin db) h.c.binSym (fun u hu => hlift _ u (hne u (irrs_used hu))) h1, ?_, h3⟩
    intro l hl
    by_cases hlv : l.var = v
    · unfold Lit.holds
      rw [hlv, lift_pres hg]
      have hv2 := Pt.isTrue_iff.1 hl.1
      rw [hlv] at hv2
      exact h3' g d _ hd hdel (hval _ hv2)
    · have := h2 l hl
      unfold Lit.holds at *
      rw [← hlift _ _ hlv]; exact this
  · intro u k e b h1
    exact h.unit u k e b (VarMap.remove_eq.1 h1).2
  · intro u k e h1
    exact h.iso u k e (VarMap.remove_eq.1 h1).2

/-- The variables without global variable `g`. -/
def Vars.drop (x : Vars) (g : Nat) (d : VarData) : Vars :=
  { x with
    data := x.data.set g { d with deleted := true }
    globalFree := x.globalFree ++ [g] }

theorem Vars.drop_get {x : Vars} {g : Nat} {d : VarData} (hd : x.data[g]? = some d) (k : Nat) :
    (x.drop g d).data[k]? = if k = g then some { d with deleted := true } else x.data[k]? := by
  unfold Vars.drop
  simp only
  by_cases hk : k = g
  · subst hk
    rw [if_pos rfl, List.getElem?_set_self (List.getElem?_eq_some_iff.1 hd).1]
  · rw [if_neg hk, List.getElem?_set_ne (Ne.symm hk)]

theorem Vars.drop_live {x : Vars} {g : Nat} {d : VarData} (hd : x.data[g]? = some d) {k : Nat} :
    (x.drop g d).Live k ↔ k ≠ g ∧ x.Live k := by
  unfold Vars.Live
  simp only [Vars.drop_get hd]
  by_cases hk : k = g
  · simp [hk]
  · simp [hk]

theorem VInv.drop {x : Vars} (h : VInv x) {g : Nat} {d : VarData} (hd : x.data[g]? = some d)
    (hu : x.ufg.map g = none) (hs : x.sfg.map g = none) : VInv (x.drop g d) := by
  have hnu : ∀ u k, x.gfu.map u = some k → k ≠ g := by
    rintro u k hk rfl; rw [h.us, hu] at hk; cases hk
  have hns : ∀ u k, x.gfs.map u = some k → k ≠ g := by
    rintro u k hk rfl; rw [← h.gs, hs] at hk; cases hk
  refine ⟨h.us, h.gs, h.ulen, h.slen, ?_, ?_, ?_, h.ufree, h.sfree, ?_⟩
  · intro u k hk
    obtain ⟨e, h1, h2⟩ := h.ulive u k hk
    exact ⟨e, by rw [Vars.drop_get hd, if_neg (hnu u k hk)]; exact h1, h2⟩
  · intro u k hk
    exact (Vars.drop_live hd).2 ⟨hns u k hk, h.slive u k hk⟩
  · intro k e h1 h2 h3
    rw [Vars.drop_get hd] at h1
    by_cases hk : k = g
    · rw [if_pos hk] at h1
      obtain rfl := Option.some.inj h1
      cases h2
    · rw [if_neg hk] at h1; exact h.hid k e h1 h2 h3
  · intro k hk
    rw [Vars.drop_get hd]
    by_cases hkg : k = g
    · exact ⟨_, by rw [if_pos hkg], rfl⟩
    · rw [if_neg hkg]
      rcases List.mem_append.1 hk with hk | hk
      · exact h.gfree k hk
      · simp only [List.mem_singleton] at hk; exact absurd hk hkg

theorem AsmOk.drop {x : Vars} (hv : VInv x) {ls : List Lit} (h : AsmOk x ls) {g : Nat} {d : VarData}
    (hd : x.data[g]? = some d) (hs : x.sfg.map g = none) : AsmOk (x.drop g d) ls := by
  intro l hl
  obtain ⟨k, e, h1, h2, h3⟩ := h l hl
  refine ⟨k, e, h1, ?_, h3⟩
  rw [Vars.drop_get hd, if_neg]
  · exact h2
  · rintro rfl; rw [← hv.gs, hs] at h1; cases h1

/-- Deleting a global variable. -/
theorem Core.drop {bin : Lit → List Lit} {w : Wl} {db : Db α} {x : Vars} {p : Pt} (h : Core F ids bin w db x p)
    (hv : VInv x) {g : Nat} {d : VarData} (hd : x.data[g]? = some d) (hs : x.sfg.map g = none) :
    Core F ids bin w db (x.drop g d) p := by
  have hns : ∀ u k, x.gfs.map u = some k → k ≠ g := by
    rintro u k hk rfl; rw [← hv.gs, hs] at hk; cases hk
  have hlift : ∀ σ σ' : Asg, (∀ k, k ≠ g → σ' k = σ k) → lift x p σ' = lift x p σ := by
    intro σ σ' hσ
    funext u
    unfold lift
    cases hu : x.gfs.map u with
    | none => rfl
    | some k => exact hσ k (hns u k hu)
  have hlift2 : ∀ σ, lift (x.drop g d) p σ = lift x p σ := fun σ => rfl
  refine ⟨h.c, h.wok, h.dbi, ?_, ?_, ?_, ?_⟩
  · intro τ hτ
    obtain ⟨h1, h2, h3⟩ := h.s1 τ hτ
    refine ⟨h1, h2, ?_⟩
    intro k e b e1 e2 e3
    rw [Vars.drop_get hd] at e1
    by_cases hk : k = g
    · rw [if_pos hk] at e1; obtain rfl := Option.some.inj e1; cases e2
    · rw [if_neg hk] at e1; exact h3 k e b e1 e2 e3
  · intro σ ⟨h1, h2, h3⟩
    rw [hlift2] at h1 h2
    suffices hH : Holds (irrs bin db) x p (put σ g (d.unit.getD (σ g))) by
      obtain ⟨τ, t1, t2⟩ := h.s2 _ hH
      refine ⟨τ, t1, fun k hk => ?_⟩
      obtain ⟨hk1, hk2⟩ := (Vars.drop_live hd).1 hk
      rw [t2 k hk2, put_ne _ _ hk1]
    refine ⟨?_, ?_, ?_⟩
    · rw [hlift σ _ (fun k hk => put_ne _ _ hk)]; exact h1
    · rw [hlift σ _ (fun k hk => put_ne _ _ hk)]; exact h2
    · intro k e b e1 e2 e3
      by_cases hk : k = g
      · subst hk
        rw [hd] at e1; obtain rfl := Option.some.inj e1
        rw [put_same, e3]; rfl
      · rw [put_ne _ _ hk]
        exact h3 k e b (by rw [Vars.drop_get hd, if_neg hk]; exact e1) e2 e3
  · intro u k e b e1 e2
    rw [Vars.drop_get hd, if_neg (hns u k e1)] at e2
    exact h.unit u k e b e1 e2
  · intro u k e e1 e2
    rw [Vars.drop_get hd, if_neg (hns u k e1)] at e2
    exact h.iso u k e e1 e2

end Varisat.Solver
