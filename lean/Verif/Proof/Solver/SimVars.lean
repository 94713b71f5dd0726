import Verif.Proof.Solver.SimClause
/-!
# Operations on variables: solver and checker
-/
namespace Varisat.Solver

open Api (Abs)
open Checker (View LitsOk SamplingMode hashOf upd)

variable {α : Type} [LinearOrder α]
variable {a : Option Abs} {x y : Vars} {p q : Pt} {st : Bool → List Lit → Nat} {V : View}

theorem glit_congr {l : Lit} (h : y.gfs.map l.var = x.gfs.map l.var) : glit y l = glit x l := by
  unfold glit; rw [h]

theorem canon_congr {ls : List Lit} (h : ∀ l ∈ ls, y.gfs.map l.var = x.gfs.map l.var) : canon y ls = canon x ls := by
  unfold canon
  rw [List.map_congr_left fun l hl => glit_congr (h l hl)]

theorem SimC.vars (h : SimC x st V) (hg : y.gfs.map = x.gfs.map) : SimC y st V := by
  have ho : ∀ ls, Ordin y ls ↔ Ordin x ls := by
    intro ls
    constructor
    · intro h; exact ⟨fun l hl => by have := h.pres l hl; unfold Vars.pres at this ⊢; rwa [← hg], h.nodup⟩
    · intro h; exact ⟨fun l hl => by have := h.pres l hl; unfold Vars.pres at this ⊢; rwa [hg], h.nodup⟩
  have hc : ∀ ls, canon y ls = canon x ls := fun ls => canon_congr fun l _ => by rw [hg]
  refine ⟨fun r ls h1 h2 => ?_, fun r k h1 h2 => ?_⟩
  · rw [hc]; exact h.cnt r ls ((ho ls).1 h1) h2
  · obtain ⟨ls, h3, h4⟩ := h.only r k h1 h2
    exact ⟨ls, (ho ls).2 h3, by rw [hc]; exact h4⟩

theorem gmode_dead {g : Nat} (h : ¬ x.Live g) : gmode x g = .sample := by
  unfold gmode
  split
  · rename_i d hd
    by_cases hdel : d.deleted = true
    · rw [if_pos hdel]
    · exact absurd ⟨d, hd, by simpa using hdel⟩ h
  · rfl

theorem gmode_live {g : Nat} {d : VarData} (h : x.data[g]? = some d) (hd : d.deleted = false) : gmode x g = smode d.mode := by
  unfold gmode; rw [h]; simp [hd]

theorem VInv.sdead (hv : VInv x) {g : Nat} (h : ¬ x.Live g) : x.sfg.map g = none := by
  cases hc : x.sfg.map g with
  | none => rfl
  | some v => exact absurd (hv.slive v g ((hv.gs g v).1 hc)) h

theorem VInv.udead (hv : VInv x) {g : Nat} (h : ¬ x.Live g) : x.ufg.map g = none := by
  cases hc : x.ufg.map g with
  | none => rfl
  | some u =>
    obtain ⟨d, h1, h2, _⟩ := hv.ulive u g ((hv.us u g).2 hc)
    exact absurd ⟨d, h1, h2⟩ h

theorem knownG_dead (hv : VInv x) {g : Nat} {b : Bool} (h : ¬ x.Live g) : ¬ KnownG x p g b := by
  unfold KnownG
  rw [hv.sdead h]
  rintro ⟨d, h1, h2, _⟩
  exact h ⟨d, h1, h2⟩

/-! ### A new global variable -/

theorem SimB.newGlobal (h : SimB a x p st V) (hv : VInv x) {g u : Nat} (hg : ¬ x.Live g) (hu : x.gfu.map u = none)
    (hlt : u < max x.data.length (g + 1)) :
    V.Acc (.userVarName g (some u)) ∧ SimB a (x.newGlobal u g) p st (V.step (.userVarName g (some u))) := by
  have hkeep : ∀ (k : Nat) (d : VarData), x.Live k → x.data[k]? = some d → (x.newGlobal u g).data[k]? = some d := by
    intro k d h1 h2
    exact Vars.newGlobal_keep (fun e => hg (e ▸ h1)) h2
  have hlive : ∀ k, (x.newGlobal u g).Live k ↔ k = g ∨ x.Live k := fun k => Vars.newGlobal_live hg
  refine ⟨⟨by rw [h.v.nvars]; exact hlt, by rw [h.v.used, hu]; rfl, by rw [h.v.mode, gmode_dead hg]; decide,
    by rw [h.v.user]; exact hv.udead hg⟩, ?_, ?_, ?_, ?_⟩
  · refine ⟨h.v.names, ?_, ?_, ?_, ?_, ?_, ?_⟩
    · show upd V.user g (some u) = _
      rw [h.v.user]; rfl
    · intro k
      show upd V.used u true k = ((x.newGlobal u g).gfu.map k).isSome
      rw [show (x.newGlobal u g).gfu.map k = if k = u then some g else x.gfu.map k from rfl]
      unfold upd
      by_cases hk : k = u
      · simp [hk]
      · simp [hk, h.v.used]
    · intro k
      show V.mode k = _
      rw [h.v.mode]
      by_cases hk : k = g
      · subst hk
        rw [gmode_dead hg, gmode_live Vars.newGlobal_self rfl]; rfl
      · by_cases hl : x.Live k
        · obtain ⟨d, h1, h2⟩ := hl
          rw [gmode_live h1 h2, gmode_live (hkeep k d ⟨d, h1, h2⟩ h1) h2]
        · rw [gmode_dead hl, gmode_dead (fun hc => by rcases (hlive k).1 hc with e | e; exact hk e; exact hl e)]
    · show max V.nvars (g + 1) = (St.setUserDefault x.data g).length
      rw [setUserDefault_length, h.v.nvars]
    · show max x.gfu.len (u + 1) ≤ (St.setUserDefault x.data g).length
      have := h.v.ulen
      rw [setUserDefault_length]; omega
    · show x.gfs.len ≤ (St.setUserDefault x.data g).length
      have := h.v.slen
      rw [setUserDefault_length]; omega
  · intro k b
    show V.unit k = some b ↔ _
    rw [h.u]
    by_cases hl : x.Live k
    · obtain ⟨d, h1, h2⟩ := hl
      unfold KnownG
      rw [show (x.newGlobal u g).sfg = x.sfg from rfl, hkeep k d ⟨d, h1, h2⟩ h1, h1]
    · refine iff_of_false (knownG_dead hv hl) ?_
      unfold KnownG
      rw [show (x.newGlobal u g).sfg = x.sfg from rfl, hv.sdead hl]
      rintro ⟨d, h1, h2, h3⟩
      rcases (hlive k).1 ⟨d, h1, h2⟩ with e | e
      · subst e
        rw [Vars.newGlobal_self] at h1
        obtain rfl := Option.some.inj h1
        cases h3
      · exact hl e
  · exact (h.c.vars (y := x.newGlobal u g) rfl).view rfl
  · intro c hc l hl
    obtain ⟨w, d, i, h1, h2, h3, h4, h5⟩ := h.as c hc l hl
    obtain ⟨d', k1, k2, _⟩ := hv.ulive w _ h1
    refine ⟨w, d, i, ?_, hkeep _ d ⟨d', k1, k2⟩ h2, h3, h4, h5⟩
    rw [show (x.newGlobal u g).gfu.map w = if w = u then some g else x.gfu.map w from rfl, if_neg]
    · exact h1
    · rintro rfl; rw [hu] at h1; cases h1

/-! ### A new solver variable -/

theorem Pt.initVar_root {v : Nat} {b : Option Bool} {l : Lit} (hl : l.var ≠ v) : (p.initVar v b).Root l ↔ p.Root l := by
  obtain ⟨h1, h2, h3, h4, h5, h6, _, _⟩ := Pt.initVar_fields p v b
  unfold Pt.Root Pt.isTrue Pt.At
  rw [h1, h2, h4, put_ne _ _ hl, h5 _ hl]

theorem Pt.initVar_known {v : Nat} {b : Option Bool} {l : Lit} (hl : l.var ≠ v) : Known (p.initVar v b) l ↔ Known p l := by
  obtain ⟨h1, h2, h3, h4, h5, h6, _, _⟩ := Pt.initVar_fields p v b
  unfold Known
  rw [Pt.initVar_root hl, Pt.reason, Pt.reason, h5 _ hl]

theorem Pt.initVar_self {v : Nat} {b : Option Bool} {c : Bool} : Known (p.initVar v b) (Lit.mk' v c) ↔ b = some c := by
  obtain ⟨h1, h2, h3, h4, h5, h6, _, _⟩ := Pt.initVar_fields p v b
  constructor
  · rintro ⟨⟨h7, _⟩, _⟩
    unfold Pt.isTrue at h7
    rw [h4] at h7
    simpa [put] using h7
  · rintro rfl
    refine ⟨⟨?_, .inr ?_⟩, ?_⟩
    · unfold Pt.isTrue; rw [h4]; simp [put]
    · simpa using h6 (by simp)
    · simp [Pt.reason, Pt.initVar, Pt.updateRemovedUnit, put]

theorem R0.initVar (h : R0 p) (v : Nat) (b : Option Bool) : R0 (p.initVar v b) := by
  intro l hl
  by_cases he : l.var = v
  · have h1 := hl.1
    obtain ⟨_, _, _, h4, _⟩ := Pt.initVar_fields p v b
    unfold Pt.isTrue at h1
    rw [h4, he] at h1
    have hb : b = some (!l.isNeg) := by simpa [put] using h1
    rw [hb, he]
    simp [Pt.reason, Pt.initVar, Pt.updateRemovedUnit, put]
  · have := h l ((Pt.initVar_root he).1 hl)
    obtain ⟨_, _, _, _, h5, _⟩ := Pt.initVar_fields p v b
    rw [Pt.reason, h5 _ he]; exact this

theorem SimB.newSolver (h : SimB a x p st V) (hv : VInv x) (huse : ∀ r k, 0 < st r k → Ordin x k)
    {v g : Nat} {d : VarData} (hd : x.data[g]? = some d) (hdel : d.deleted = false) (hn : x.sfg.map g = none)
    (hf : x.gfs.map v = none) (hvl : v ≤ x.gfs.len) (hfull : v = x.gfs.len → ∀ w, w < x.gfs.len → x.pres w) :
    SimB a (x.newSolver v g) (p.initVar v d.unit) st (V.step (.solverVarName g (some v))) := by
  have hgfs : ∀ k, (x.newSolver v g).gfs.map k = if k = v then some g else x.gfs.map k := fun k => rfl
  have hsfg : ∀ k, (x.newSolver v g).sfg.map k = if k = g then some v else x.sfg.map k := fun k => rfl
  have hnp : ¬ x.pres v := by unfold Vars.pres; rw [hf]; simp
  have hold : ∀ ls, Ordin x ls → Ordin (x.newSolver v g) ls ∧ canon (x.newSolver v g) ls = canon x ls := by
    intro ls ho
    have hne : ∀ l ∈ ls, l.var ≠ v := fun l hl e => hnp (e ▸ ho.pres l hl)
    refine ⟨⟨fun l hl => ?_, ho.nodup⟩, canon_congr fun l hl => ?_⟩
    · unfold Vars.pres; rw [hgfs, if_neg (hne l hl)]; exact ho.pres l hl
    · rw [hgfs, if_neg (hne l hl)]
  refine ⟨?_, ?_, ?_, h.as⟩
  · refine ⟨?_, h.v.user, h.v.used, h.v.mode, h.v.nvars, h.v.ulen, ?_⟩
    · show upd V.names g (some v) = _
      rw [h.v.names]; rfl
    · show max x.gfs.len (v + 1) ≤ x.data.length
      have := h.v.slen
      rcases Nat.lt_or_ge v x.gfs.len with h1 | h1
      · omega
      have he : v = x.gfs.len := by omega
      have := hv.spare hn (List.getElem?_eq_some_iff.1 hd).1 (hfull he)
      omega
  · intro k b
    show V.unit k = some b ↔ _
    rw [h.u]
    unfold KnownG
    rw [hsfg]
    by_cases hk : k = g
    · subst hk
      rw [if_pos rfl, hn]
      simp only
      rw [Pt.initVar_self]
      constructor
      · rintro ⟨d', h1, _, h3⟩
        rw [hd] at h1; obtain rfl := Option.some.inj h1; exact h3
      · intro h3; exact ⟨d, hd, hdel, h3⟩
    · rw [if_neg hk]
      cases hc : x.sfg.map k with
      | none => exact Iff.rfl
      | some w =>
        simp only
        rw [Pt.initVar_known]
        intro e
        rw [Lit.var_mk'] at e
        subst e
        have := (hv.gs k w).1 hc
        rw [hf] at this; cases this
  · constructor
    · intro r ls ho hl
      show V.cnt r _ = _
      by_cases ho' : Ordin x ls
      · rw [(hold ls ho').2]; exact h.c.cnt r ls ho' hl
      · have h1 : st r ls = 0 := by
          rcases Nat.eq_zero_or_pos (st r ls) with e | e
          · exact e
          · exact absurd (huse r ls e) ho'
        rw [h1]
        rcases Nat.eq_zero_or_pos (V.cnt r (canon (x.newSolver v g) ls)) with e | e
        · exact e
        exfalso
        obtain ⟨ms, h2, h3⟩ := h.c.only r _ (ho.litsOk (hv.newSolver ⟨d, hd, hdel⟩ hn hf hvl) hl) e
        have hex : ∃ l ∈ ls, l.var = v := by
          by_contra hc
          refine ho' ⟨fun l hl' => ?_, ho.nodup⟩
          have := ho.pres l hl'
          unfold Vars.pres at this ⊢
          rw [hgfs, if_neg (fun e => hc ⟨l, hl', e⟩)] at this
          exact this
        obtain ⟨l, hl', he⟩ := hex
        have : glit (x.newSolver v g) l ∈ canon x ms := by rw [← h3]; exact mem_canon.2 ⟨l, hl', rfl⟩
        obtain ⟨m, hm, hme⟩ := mem_canon.1 this
        obtain ⟨k, hk⟩ := Option.isSome_iff_exists.1 (h2.pres m hm)
        have h4 : (glit (x.newSolver v g) l).var = g := glit_var (by rw [hgfs, if_pos he])
        rw [← hme, glit_var hk] at h4
        subst h4
        rw [← hv.gs, hn] at hk
        cases hk
    · intro r k hk hc
      obtain ⟨ls, h1, h2⟩ := h.c.only r k hk hc
      exact ⟨ls, (hold ls h1).1, by rw [(hold ls h1).2]; exact h2⟩

/-! ### Removing a solver variable -/

theorem SimB.unmap (h : SimB a x p st V) (hv : VInv x) {v g : Nat} {d : VarData} (hg : x.gfs.map v = some g)
    (huse : ∀ r k, 0 < st r k → ∀ l ∈ k, l.var ≠ v) (hd : x.data[g]? = some d)
    (hun : ∀ b, Known p (Lit.mk' v b) ↔ d.unit = some b) :
    SimB a (x.unmap v g) p st (V.step (.solverVarName g none)) := by
  have hgfs : ∀ k, (x.unmap v g).gfs.map k = if k = v then none else x.gfs.map k := fun k => rfl
  have hsfg : ∀ k, (x.unmap v g).sfg.map k = if k = g then none else x.sfg.map k := fun k => rfl
  obtain ⟨d', hd', hdel⟩ := hv.slive v g hg
  rw [hd] at hd'
  obtain rfl := Option.some.inj hd'
  have hne : ∀ ls, Ordin (x.unmap v g) ls → ∀ l ∈ ls, l.var ≠ v := by
    intro ls ho l hl e
    have := ho.pres l hl
    unfold Vars.pres at this
    rw [hgfs, if_pos e] at this
    cases this
  have hiff : ∀ ls, (Ordin (x.unmap v g) ls ↔ Ordin x ls ∧ ∀ l ∈ ls, l.var ≠ v) := by
    intro ls
    constructor
    · intro ho
      refine ⟨⟨fun l hl => ?_, ho.nodup⟩, hne ls ho⟩
      have := ho.pres l hl
      unfold Vars.pres at this ⊢
      rwa [hgfs, if_neg (hne ls ho l hl)] at this
    · rintro ⟨ho, hn⟩
      refine ⟨fun l hl => ?_, ho.nodup⟩
      unfold Vars.pres
      rw [hgfs, if_neg (hn l hl)]
      exact ho.pres l hl
  have hcan : ∀ ls, (∀ l ∈ ls, l.var ≠ v) → canon (x.unmap v g) ls = canon x ls := fun ls hn =>
    canon_congr fun l hl => by rw [hgfs, if_neg (hn l hl)]
  refine ⟨?_, ?_, ?_, h.as⟩
  · refine ⟨?_, h.v.user, h.v.used, h.v.mode, h.v.nvars, h.v.ulen, h.v.slen⟩
    show upd V.names g none = _
    rw [h.v.names]; rfl
  · intro k b
    show V.unit k = some b ↔ _
    rw [h.u]
    unfold KnownG
    rw [hsfg]
    by_cases hk : k = g
    · subst hk
      rw [if_pos rfl, (hv.gs k v).2 hg]
      simp only
      rw [hun]
      constructor
      · intro h3; exact ⟨d, hd, hdel, h3⟩
      · rintro ⟨d', h1, _, h3⟩
        change x.data[k]? = _ at h1
        rw [hd] at h1; obtain rfl := Option.some.inj h1; exact h3
    · rw [if_neg hk]; exact Iff.rfl
  · constructor
    · intro r ls ho hl
      show V.cnt r _ = _
      obtain ⟨h1, h2⟩ := (hiff ls).1 ho
      rw [hcan ls h2]
      exact h.c.cnt r ls h1 hl
    · intro r k hk hc
      change 0 < V.cnt r k at hc
      obtain ⟨ls, h1, h2⟩ := h.c.only r k hk hc
      subst h2
      have hl : 2 ≤ ls.length := by rw [← h1.length hv]; exact hk.len
      rw [h.c.cnt r ls h1 hl] at hc
      exact ⟨ls, (hiff ls).2 ⟨h1, huse r ls hc⟩, (hcan ls (huse r ls hc)).symm⟩

/-! ### Deleting a global variable -/

theorem SimB.drop (h : SimB a x p st V) (hv : VInv x) {g : Nat} {d : VarData} (hd : x.data[g]? = some d)
    (hu : x.ufg.map g = none) (hs : x.sfg.map g = none) :
    V.Acc (.deleteVar g) ∧ SimB a (x.drop g d) p st (V.step (.deleteVar g)) := by
  refine ⟨⟨by rw [h.v.user]; exact hu, fun r k hk ⟨l, hl, he⟩ => ?_⟩, ?_, ?_, (h.c.vars (y := x.drop g d) rfl).view rfl, ?_⟩
  · rcases Nat.eq_zero_or_pos (V.cnt r k) with e | e
    · exact e
    exfalso
    obtain ⟨ls, h1, rfl⟩ := h.c.only r k hk e
    have := h1.named hv l hl
    rw [he, hs] at this
    cases this
  · refine ⟨h.v.names, ?_, h.v.used, ?_, ?_, ?_, ?_⟩
    · show upd V.user g none = x.ufg.map
      rw [h.v.user]
      funext k
      unfold upd
      split
      · rename_i e; rw [e, hu]
      · rfl
    · intro k
      show upd V.mode g .sample k = _
      unfold upd gmode
      rw [Vars.drop_get hd]
      by_cases hk : k = g
      · simp [hk]
      · simp only [hk, if_false]; exact h.v.mode k
    · show V.nvars = (x.data.set g _).length
      rw [List.length_set]; exact h.v.nvars
    · show x.gfu.len ≤ (x.data.set g _).length
      rw [List.length_set]; exact h.v.ulen
    · show x.gfs.len ≤ (x.data.set g _).length
      rw [List.length_set]; exact h.v.slen
  · intro k b
    show upd V.unit g none k = some b ↔ _
    unfold upd KnownG
    rw [Vars.drop_get hd]
    by_cases hk : k = g
    · subst hk
      rw [if_pos rfl, show (x.drop k d).sfg = x.sfg from rfl, hs]
      simp
    · simp only [hk, if_false]; exact h.u k b
  · intro c hc l hl
    obtain ⟨w, e, i, h1, h2, h3, h4, h5⟩ := h.as c hc l hl
    refine ⟨w, e, i, h1, ?_, h3, h4, h5⟩
    rw [Vars.drop_get hd, if_neg]
    · exact h2
    · intro e
      rw [e, hv.us, hu] at h1
      cases h1

/-! ### Sampling modes -/

theorem SimU.data (h : SimU x p V) (hs : y.sfg = x.sfg)
    (hd : ∀ g, x.sfg.map g = none → ∀ b, (∃ d, y.data[g]? = some d ∧ d.deleted = false ∧ d.unit = some b) ↔
      ∃ d, x.data[g]? = some d ∧ d.deleted = false ∧ d.unit = some b) : SimU y p V := by
  intro g b
  rw [h, KnownG, KnownG, hs]
  cases hc : x.sfg.map g with
  | none => exact (hd g hc b).symm
  | some v => exact Iff.rfl

theorem SimB.withMode (h : SimB a x p st V) (hv : VInv x) {g : Nat} {d : VarData} (hd : x.data[g]? = some d)
    (hdel : d.deleted = false) (h1 : d.mode ≠ .hide) {m : Mode} (hm : m ≠ .hide) :
    V.Acc (.changeSamplingMode g (m == .sample)) ∧
      SimB a (x.withMode g d m) p st (V.step (.changeSamplingMode g (m == .sample))) := by
  have hget : ∀ k, (x.withMode g d m).data[k]? = if k = g then some { d with mode := m } else x.data[k]? := fun k => set_get hd k
  refine ⟨fun _ => .inr (by rw [h.v.user]; exact hv.hid g d hd hdel h1), ?_, ?_,
    (h.c.vars (y := x.withMode g d m) rfl).view rfl, ?_⟩
  · refine ⟨h.v.names, h.v.user, h.v.used, ?_, ?_, ?_, ?_⟩
    · intro k
      show upd V.mode g (if (m == .sample) = true then .sample else .witness) k = _
      unfold upd gmode
      rw [hget]
      by_cases hk : k = g
      · simp only [hk, if_true, hdel]
        cases m <;> simp_all [smode]
      · simp only [hk, if_false]; exact h.v.mode k
    · show V.nvars = (x.data.set g _).length
      rw [List.length_set]; exact h.v.nvars
    · show x.gfu.len ≤ (x.data.set g _).length
      rw [List.length_set]; exact h.v.ulen
    · show x.gfs.len ≤ (x.data.set g _).length
      rw [List.length_set]; exact h.v.slen
  · refine SimU.data (x := x) (y := x.withMode g d m) (V := V) h.u rfl fun k _ b => ?_
    rw [hget]
    by_cases hk : k = g
    · simp [hk, hd]
    · simp only [hk, if_false]
  · intro c hc l hl
    obtain ⟨w, e, i, k1, k2, k3, k4, k5⟩ := h.as c hc l hl
    by_cases hk : l.var = g
    · rw [hk, hd] at k2
      obtain rfl := Option.some.inj k2
      exact ⟨w, { d with mode := m }, i, k1, by rw [hget, if_pos hk], k3, k4, k5⟩
    · exact ⟨w, e, i, k1, by rw [hget, if_neg hk]; exact k2, k3, k4, k5⟩

theorem SimB.show_ (h : SimB a x p st V) {g u : Nat} {d : VarData} (hd : x.data[g]? = some d)
    (hdel : d.deleted = false) (h1 : x.ufg.map g = none) (hu : x.gfu.map u = none) (hlt : u < x.data.length) :
    V.Acc (.changeSamplingMode g false) ∧ (V.step (.changeSamplingMode g false)).Acc (.userVarName g (some u)) ∧
      SimB a (x.show_ g u d) p st ((V.step (.changeSamplingMode g false)).step (.userVarName g (some u))) := by
  have hget : ∀ k, (x.show_ g u d).data[k]? = if k = g then some { d with mode := .witness } else x.data[k]? :=
    fun k => set_get hd k
  have hgl : g < x.data.length := (List.getElem?_eq_some_iff.1 hd).1
  refine ⟨fun e => (by cases e), ⟨?_, ?_, ?_, ?_⟩, ?_, ?_, (h.c.vars (y := x.show_ g u d) rfl).view rfl, ?_⟩
  · show u < max V.nvars (g + 1)
    rw [h.v.nvars]; omega
  · show V.used u = false
    rw [h.v.used, hu]; rfl
  · show upd V.mode g _ g ≠ _
    unfold upd; simp
  · show V.user g = none
    rw [h.v.user]; exact h1
  · refine ⟨h.v.names, ?_, ?_, ?_, ?_, ?_, ?_⟩
    · show upd V.user g (some u) = _
      rw [h.v.user]; rfl
    · intro k
      show upd V.used u true k = ((x.show_ g u d).gfu.map k).isSome
      rw [show (x.show_ g u d).gfu.map k = if k = u then some g else x.gfu.map k from rfl]
      unfold upd
      by_cases hk : k = u
      · simp [hk]
      · simp [hk, h.v.used]
    · intro k
      show upd V.mode g _ k = _
      unfold upd gmode
      rw [hget]
      by_cases hk : k = g
      · simp [hk, hdel, smode]
      · simp only [hk, if_false]; exact h.v.mode k
    · show max V.nvars (g + 1) = (x.data.set g _).length
      rw [List.length_set, h.v.nvars]; omega
    · show max x.gfu.len (u + 1) ≤ (x.data.set g _).length
      have := h.v.ulen
      rw [List.length_set]; omega
    · show x.gfs.len ≤ (x.data.set g _).length
      rw [List.length_set]; exact h.v.slen
  · refine SimU.data (x := x) (y := x.show_ g u d) (V := V) h.u rfl fun k _ b => ?_
    rw [hget]
    by_cases hk : k = g
    · simp [hk, hd]
    · simp only [hk, if_false]
  · intro c hc l hl
    obtain ⟨w, e, i, k1, k2, k3, k4, k5⟩ := h.as c hc l hl
    have hw : (x.show_ g u d).gfu.map w = some l.var := by
      rw [show (x.show_ g u d).gfu.map w = if w = u then some g else x.gfu.map w from rfl, if_neg]
      · exact k1
      · rintro rfl; rw [hu] at k1; cases k1
    by_cases hk : l.var = g
    · rw [hk, hd] at k2
      obtain rfl := Option.some.inj k2
      exact ⟨w, { d with mode := .witness }, i, hw, by rw [hget, if_pos hk], k3, k4, k5⟩
    · exact ⟨w, e, i, hw, by rw [hget, if_neg hk]; exact k2, k3, k4, k5⟩

theorem SimB.hide (h : SimB a x p st V) (hv : VInv x) {g u : Nat} {d : VarData} (hd : x.data[g]? = some d)
    (hdel : d.deleted = false) (ha : d.assumed = false) (hu : x.gfu.map u = some g) :
    V.Acc (.userVarName g none) ∧ SimB a (x.hide g u d) p st (V.step (.userVarName g none)) := by
  have hget : ∀ k, (x.hide g u d).data[k]? = if k = g then some { d with mode := .hide } else x.data[k]? :=
    fun k => set_get hd k
  have hgu : x.ufg.map g = some u := (hv.us u g).1 hu
  have hV : V.user g = some u := by rw [h.v.user]; exact hgu
  have hstep : V.step (.userVarName g none) = { V with used := upd V.used u false, user := upd V.user g none, mode := upd V.mode g .hide } := by
    show (match V.user g with | some u => _ | none => V) = _
    rw [hV]
  rw [hstep]
  refine ⟨show (V.user g).isSome = true by rw [hV]; rfl, ?_, ?_, (h.c.vars (y := x.hide g u d) rfl).view rfl, ?_⟩
  · refine ⟨h.v.names, ?_, ?_, ?_, ?_, ?_, ?_⟩
    · show upd V.user g none = _
      rw [h.v.user]; rfl
    · intro k
      show upd V.used u false k = ((x.hide g u d).gfu.map k).isSome
      rw [show (x.hide g u d).gfu.map k = if k = u then none else x.gfu.map k from rfl]
      unfold upd
      by_cases hk : k = u
      · simp [hk]
      · simp [hk, h.v.used]
    · intro k
      show upd V.mode g _ k = _
      unfold upd gmode
      rw [hget]
      by_cases hk : k = g
      · simp [hk, hdel, smode]
      · simp only [hk, if_false]; exact h.v.mode k
    · show V.nvars = (x.data.set g _).length
      rw [List.length_set]; exact h.v.nvars
    · show x.gfu.len ≤ (x.data.set g _).length
      rw [List.length_set]; exact h.v.ulen
    · show x.gfs.len ≤ (x.data.set g _).length
      rw [List.length_set]; exact h.v.slen
  · refine SimU.data (x := x) (y := x.hide g u d) (V := V) h.u rfl fun k _ b => ?_
    rw [hget]
    by_cases hk : k = g
    · simp [hk, hd]
    · simp only [hk, if_false]
  · intro c hc l hl
    obtain ⟨w, e, i, k1, k2, k3, k4, k5⟩ := h.as c hc l hl
    by_cases hk : l.var = g
    · rw [hk, hd] at k2
      obtain rfl := Option.some.inj k2
      rw [ha] at k3; cases k3
    · refine ⟨w, e, i, ?_, by rw [hget, if_neg hk]; exact k2, k3, k4, k5⟩
      rw [show (x.hide g u d).gfu.map w = if w = u then none else x.gfu.map w from rfl, if_neg]
      · exact k1
      · rintro rfl; rw [hu] at k1; exact hk (Option.some.inj k1).symm

/-! ### Other data -/

/-- Variable data with the same modes; the known unit of a variable without solver variable is the same. -/
theorem SimB.data (h : SimB a x p st V) {data : List VarData} (hl : data.length = x.data.length)
    (hd : ∀ (g : Nat) (d d' : VarData), x.data[g]? = some d → data[g]? = some d' →
      d'.deleted = d.deleted ∧ d'.mode = d.mode ∧ (x.sfg.map g = none → d'.unit = d.unit))
    (ha : ∀ b, a = some b → ∀ l ∈ V.asm, ∀ (d d' : VarData), x.data[l.var]? = some d → data[l.var]? = some d' → d.assumed = true → d'.assumed = true) :
    SimB a { x with data := data } p st V := by
  have hex : ∀ g : Nat, (data[g]? = none ↔ x.data[g]? = none) := by
    intro g; rw [List.getElem?_eq_none_iff, List.getElem?_eq_none_iff, hl]
  refine ⟨⟨h.v.names, h.v.user, h.v.used, ?_, ?_, ?_, ?_⟩, ?_, (h.c.vars (y := { x with data := data }) rfl), ?_⟩
  · intro k
    rw [h.v.mode]
    unfold gmode
    simp only
    cases h1 : x.data[k]? with
    | none => rw [(hex k).2 h1]
    | some d =>
      cases h2 : data[k]? with
      | none => rw [(hex k).1 h2] at h1; cases h1
      | some d' => obtain ⟨e1, e2, _⟩ := hd k d d' h1 h2; simp only [e1, e2]
  · rw [h.v.nvars, hl]
  · rw [hl]; exact h.v.ulen
  · rw [hl]; exact h.v.slen
  · refine SimU.data (x := x) (y := { x with data := data }) h.u rfl fun k hk b => ?_
    simp only
    cases h1 : x.data[k]? with
    | none => rw [(hex k).2 h1]
    | some d =>
      cases h2 : data[k]? with
      | none => rw [(hex k).1 h2] at h1; cases h1
      | some d' => obtain ⟨e1, _, e3⟩ := hd k d d' h1 h2; simp [e1, e3 hk]
  · intro c hc l hl'
    obtain ⟨w, d, i, k1, k2, k3, k4, k5⟩ := h.as c hc l hl'
    cases h2 : data[l.var]? with
    | none => rw [(hex l.var).1 h2] at k2; cases k2
    | some d' => exact ⟨w, d', i, k1, rfl, ha c hc l hl' d d' k2 h2 k3, k4, k5⟩

/-- Another assignment with the same units. -/
theorem SimB.point (h : SimB a x p st V) (hk : ∀ l, x.pres l.var → (Known q l ↔ Known p l)) (hv : VInv x) : SimB a x q st V := by
  refine ⟨h.v, fun g b => ?_, h.c, h.as⟩
  rw [h.u, KnownG, KnownG]
  cases hc : x.sfg.map g with
  | none => exact Iff.rfl
  | some v =>
    refine (hk _ ?_).symm
    rw [Lit.var_mk']
    unfold Vars.pres
    rw [(hv.gs g v).1 hc]; rfl

end Varisat.Solver
