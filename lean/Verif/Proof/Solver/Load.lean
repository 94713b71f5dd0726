import Verif.Proof.Solver.Ops
import Verif.Proof.Sorted
/-!
# Loading clauses
-/
namespace Varisat.Solver
open Api (Abs)

variable {α : Type} [LinearOrder α]
variable {F F' : List (List Lit)} {A : List Lit} {ids : Nat → Nat}

/-! ### Updates of the variable data -/

/-- Updating the data of the solver variables of some literals. -/
def St.updLoop (f : VarData → VarData) : List Lit → St α → Except Stop (St α)
  | [], s => .ok s
  | l :: ls, s => do
    let s ← s.updSolverData l.var f
    updLoop f ls s

theorem St.setAssumed_eq (b : Bool) : ∀ (ls : List Lit) (s : St α),
    St.setAssumed b ls s = St.updLoop (fun d => { d with assumed := b }) ls s
  | [], _ => rfl
  | l :: ls, s => by
    rw [St.setAssumed, St.updLoop]
    congr 1
    funext s
    exact St.setAssumed_eq b ls s

theorem St.clearIsolated_eq : ∀ (ls : List Lit) (s : St α),
    St.clearIsolated ls s = St.updLoop (fun d => { d with isolated := false }) ls s
  | [], _ => rfl
  | l :: ls, s => by
    rw [St.clearIsolated, St.updLoop]
    congr 1
    funext s
    exact St.clearIsolated_eq ls s

/-- The data after the updates. -/
def updData (f : VarData → VarData) (x : Vars) (ls : List Lit) : List VarData :=
  ls.foldl (fun data l => match x.gfs.map l.var with | some g => data.modify g f | none => data) x.data

theorem St.updLoop_ok {f : VarData → VarData} : ∀ (ls : List Lit) {s : St α}, VInv s.vars → (∀ l ∈ ls, s.vars.pres l.var) →
    (∀ d, (f d).deleted = d.deleted ∧ (f d).mode = d.mode) → (∀ d, f (f d) = f d) →
    ∃ D, St.updLoop f ls s = .ok { s with vars := { s.vars with data := D } } ∧
      ∀ k, D[k]? = if ∃ l ∈ ls, s.vars.gfs.map l.var = some k then (s.vars.data[k]?).map f else s.vars.data[k]?
  | [], s, _, _, _, _ => ⟨s.vars.data, rfl, fun k => by simp⟩
  | l :: ls, s, hv, hp, hf, hff => by
    obtain ⟨g, hg⟩ := Option.isSome_iff_exists.1 (hp l (by simp))
    obtain ⟨d, hd, hdel⟩ := hv.slive _ _ hg
    have hlt := (List.getElem?_eq_some_iff.1 hd).1
    have hget : ∀ k, (s.vars.data.modify g f)[k]? = if k = g then (s.vars.data[k]?).map f else s.vars.data[k]? := by
      intro k
      rw [List.getElem?_modify]
      by_cases hk : k = g
      · subst hk; simp
      · rw [if_neg hk]
        have hk' : ¬ g = k := fun h => hk h.symm
        simp [hk']
    have e1 : s.updSolverData l.var f = .ok { s with vars := { s.vars with data := s.vars.data.modify g f } } := by
      unfold St.updSolverData; rw [hg]; simp only; rw [if_pos hlt]
    have hds : ∀ (k : Nat) (d' : VarData), (s.vars.data.modify g f)[k]? = some d' → ∃ d : VarData, s.vars.data[k]? = some d ∧ d'.deleted = d.deleted ∧ d'.mode = d.mode := by
      intro k d' h1
      rw [hget] at h1
      by_cases hk : k = g
      · rw [if_pos hk] at h1
        cases h2 : s.vars.data[k]? with
        | none => rw [h2] at h1; cases h1
        | some d0 =>
          rw [h2] at h1
          obtain rfl := Option.some.inj h1
          exact ⟨d0, rfl, hf d0⟩
      · rw [if_neg hk] at h1; exact ⟨d', h1, rfl, rfl⟩
    have hds' : ∀ (k : Nat) (d : VarData), s.vars.data[k]? = some d → ∃ d' : VarData, (s.vars.data.modify g f)[k]? = some d' ∧ d'.deleted = d.deleted ∧ d'.mode = d.mode := by
      intro k d0 h1
      rw [hget]
      by_cases hk : k = g
      · rw [if_pos hk, h1]; exact ⟨_, rfl, hf d0⟩
      · rw [if_neg hk, h1]; exact ⟨d0, rfl, rfl, rfl⟩
    have hv1 : VInv { s.vars with data := s.vars.data.modify g f } := by
      refine ⟨hv.us, hv.gs, hv.ulen, hv.slen, ?_, ?_, ?_, hv.ufree, hv.sfree, ?_⟩
      · intro u k h1
        obtain ⟨d0, h2, h3, h4⟩ := hv.ulive u k h1
        obtain ⟨d', h5, h6, h7⟩ := hds' k d0 h2
        exact ⟨d', h5, h6.trans h3, by rw [h7]; exact h4⟩
      · intro v k h1
        obtain ⟨d0, h2, h3⟩ := hv.slive v k h1
        obtain ⟨d', h5, h6, h7⟩ := hds' k d0 h2
        exact ⟨d', h5, h6.trans h3⟩
      · intro k d' h1 h2 h3
        obtain ⟨d0, h5, h6, h7⟩ := hds k d' h1
        exact hv.hid k d0 h5 (h6.symm.trans h2) (by rw [← h7]; exact h3)
      · intro k h1
        obtain ⟨d0, h2, h3⟩ := hv.gfree k h1
        obtain ⟨d', h5, h6, h7⟩ := hds' k d0 h2
        exact ⟨d', h5, h6.trans h3⟩
    obtain ⟨D, e2, e3⟩ := St.updLoop_ok ls (s := { s with vars := { s.vars with data := s.vars.data.modify g f } }) hv1
      (fun m hm => hp m (by simp [hm])) hf hff
    refine ⟨D, ?_, ?_⟩
    · rw [St.updLoop, e1, ok_bind]; exact e2
    · intro k
      rw [e3 k]
      show (if ∃ l ∈ ls, s.vars.gfs.map l.var = some k then ((s.vars.data.modify g f)[k]?).map f else (s.vars.data.modify g f)[k]?) = _
      rw [hget]
      by_cases hk : k = g
      · have hex : ∃ m ∈ l :: ls, s.vars.gfs.map m.var = some k := ⟨l, by simp, by rw [hk]; exact hg⟩
        rw [if_pos hk, if_pos hex]
        split
        · rw [Option.map_map]
          congr 1
          funext d0; exact hff d0
        · rfl
      · rw [if_neg hk]
        have : (∃ m ∈ l :: ls, s.vars.gfs.map m.var = some k) ↔ ∃ m ∈ ls, s.vars.gfs.map m.var = some k := by
          constructor
          · rintro ⟨m, hm, h1⟩
            rcases List.mem_cons.1 hm with rfl | hm
            · rw [hg] at h1; exact absurd (Option.some.inj h1).symm hk
            · exact ⟨m, hm, h1⟩
          · rintro ⟨m, hm, h1⟩; exact ⟨m, by simp [hm], h1⟩
        by_cases hex : ∃ m ∈ ls, s.vars.gfs.map m.var = some k
        · rw [if_pos hex, if_pos (this.2 hex)]
        · rw [if_neg hex, if_neg (fun h => hex (this.1 h))]

/-- The data changed without changing which variables exist, their modes and units. -/
structure DataLe (x : Vars) (data : List VarData) : Prop where
  some_ : ∀ (g : Nat) (d' : VarData), data[g]? = some d' → ∃ d : VarData, x.data[g]? = some d ∧ d'.deleted = d.deleted ∧
    d'.mode = d.mode ∧ d'.unit = d.unit ∧ (d'.isolated = true → d.isolated = true)
  none_ : ∀ (g : Nat) (d : VarData), x.data[g]? = some d → ∃ d' : VarData, data[g]? = some d' ∧ d'.deleted = d.deleted ∧
    d'.mode = d.mode ∧ d'.unit = d.unit

theorem DataLe.live {x : Vars} {data : List VarData} (h : DataLe x data) {g : Nat} :
    Vars.Live { x with data := data } g ↔ x.Live g := by
  constructor
  · rintro ⟨d', h1, h2⟩
    obtain ⟨d, h3, h4, _⟩ := h.some_ g d' h1
    exact ⟨d, h3, by rw [← h4]; exact h2⟩
  · rintro ⟨d, h1, h2⟩
    obtain ⟨d', h3, h4, _⟩ := h.none_ g d h1
    exact ⟨d', h3, by rw [h4]; exact h2⟩

theorem VInv.dataLe {x : Vars} (h : VInv x) {data : List VarData} (hd : DataLe x data) : VInv { x with data := data } := by
  refine ⟨h.us, h.gs, h.ulen, h.slen, ?_, ?_, ?_, h.ufree, h.sfree, ?_⟩
  · intro u g hu
    obtain ⟨d, h1, h2, h3⟩ := h.ulive u g hu
    obtain ⟨d', h4, h5, h6, _⟩ := hd.none_ g d h1
    exact ⟨d', h4, by rw [h5]; exact h2, by rw [h6]; exact h3⟩
  · intro v g hv; exact hd.live.2 (h.slive v g hv)
  · intro g d' h1 h2 h3
    obtain ⟨d, h4, h5, h6, _⟩ := hd.some_ g d' h1
    exact h.hid g d h4 (by rw [← h5]; exact h2) (by rw [← h6]; exact h3)
  · intro g hg
    obtain ⟨d, h1, h2⟩ := h.gfree g hg
    obtain ⟨d', h3, h4, _⟩ := hd.none_ g d h1
    exact ⟨d', h3, by rw [h4]; exact h2⟩

/-- Only the existence, units and isolation of the variables matter to the clauses. -/
theorem Core.vars {bin : Lit → List Lit} {w : Wl} {db : Db α} {x x' : Vars} {p : Pt} (h : Core F ids bin w db x p)
    (hg : x'.gfs.map = x.gfs.map)
    (h1 : ∀ (g : Nat) (d' : VarData), x'.data[g]? = some d' → ∃ d : VarData, x.data[g]? = some d ∧ d'.deleted = d.deleted ∧
      d'.unit = d.unit ∧ (d'.isolated = true → d.isolated = true))
    (h2 : ∀ (g : Nat) (d : VarData), x.data[g]? = some d → ∃ d' : VarData, x'.data[g]? = some d' ∧ d'.deleted = d.deleted ∧
      d'.unit = d.unit) : Core F ids bin w db x' p := by
  have hpres : x'.pres = x.pres := by funext v; unfold Vars.pres; rw [hg]
  have hlift : ∀ σ, lift x' p σ = lift x p σ := by intro σ; funext v; unfold lift; rw [hg]
  refine ⟨by rw [hpres]; exact h.c, h.wok, h.dbi, ?_, ?_, ?_, ?_⟩
  · intro τ hτ
    obtain ⟨a, b, c⟩ := h.s1 τ hτ
    refine ⟨by rw [hlift]; exact a, by rw [hlift]; exact b, ?_⟩
    intro g d' b' k1 k2 k3
    obtain ⟨d, k4, k5, k6, _⟩ := h1 g d' k1
    exact c g d b' k4 (by rw [← k5]; exact k2) (by rw [← k6]; exact k3)
  · rintro σ ⟨a, b, c⟩
    rw [hlift] at a b
    obtain ⟨τ, k1, k2⟩ := h.s2 σ ⟨a, b, fun g d b' k1 k2 k3 => by
      obtain ⟨d', k4, k5, k6⟩ := h2 g d k1
      exact c g d' b' k4 (by rw [k5]; exact k2) (by rw [k6]; exact k3)⟩
    refine ⟨τ, k1, fun g hgl => k2 g ?_⟩
    obtain ⟨d', k4, k5⟩ := hgl
    obtain ⟨d, k6, k7, _⟩ := h1 g d' k4
    exact ⟨d, k6, by rw [← k7]; exact k5⟩
  · intro v g d' b k1 k2 k3
    obtain ⟨d, k4, k5, k6, _⟩ := h1 g d' k2
    exact h.unit v g d b (by rw [← hg]; exact k1) k4 (by rw [← k6]; exact k3)
  · intro v g d' k1 k2 k3
    obtain ⟨d, k4, k5, k6, k7⟩ := h1 g d' k2
    exact h.iso v g d (by rw [← hg]; exact k1) k4 (k7 k3)

theorem Base.dataLe {s : St α} (h : Base F A ids s) {D : List VarData} (hd : DataLe s.vars D)
    (hA : ∀ (g : Nat) (d : VarData), D[g]? = some d → d.mode = .hide → d.assumed = false) :
    Base F A ids { s with vars := { s.vars with data := D } } := by
  refine ⟨h.v.dataLe hd, ⟨h.q.wf, h.q.count, h.q.pres, h.q.all⟩, h.fl, h.l0, ?_, hA, ?_, ?_⟩
  · intro g g' h1 h2; exact h.inj g g' (hd.live.1 h1) (hd.live.1 h2)
  · intro hs
    obtain ⟨a, b⟩ := h.run hs
    refine ⟨a.vars rfl ?_ ?_, b⟩
    · intro g d' h1
      obtain ⟨d, h2, h3, _, h4, h5⟩ := hd.some_ g d' h1
      exact ⟨d, h2, h3, h4, h5⟩
    · intro g d h1
      obtain ⟨d', h2, h3, _, h4⟩ := hd.none_ g d h1
      exact ⟨d', h2, h3, h4⟩
  · intro hs
    obtain ⟨⟨τ, h1, h2, h3⟩, h4⟩ := h.sat hs
    exact ⟨⟨τ, h1, h2, fun g b hg hb => h3 g b (hd.live.1 hg) hb⟩, fun g hg => h4 g (hd.live.1 hg)⟩

theorem DataLe.length {x : Vars} {D : List VarData} (h : DataLe x D) : D.length = x.data.length := by
  rcases Nat.lt_trichotomy D.length x.data.length with h1 | h1 | h1
  · exfalso
    obtain ⟨d, h2, _⟩ := h.none_ D.length _ (List.getElem?_eq_getElem h1)
    have := (List.getElem?_eq_some_iff.1 h2).1
    omega
  · exact h1
  · exfalso
    obtain ⟨d, h2, _⟩ := h.some_ x.data.length _ (List.getElem?_eq_getElem h1)
    have := (List.getElem?_eq_some_iff.1 h2).1
    omega

theorem Names.dataLe {a : Abs} {x : Vars} (h : Names a ids x) {D : List VarData} (hd : DataLe x D) :
    Names a ids { x with data := D } := ⟨h.name, h.len, fun g hg => h.lt g (hd.live.1 hg), h.occ,
      by rw [hd.length]; exact h.sz.ulen, by rw [hd.length]; exact h.sz.slen, by rw [hd.length]; exact h.sz.dlen⟩

/-- The data after an update that changes only `isolated` and `assumed`. -/
theorem DataLe.upd {x : Vars} {D : List VarData} {f : VarData → VarData} {P : Nat → Prop} [DecidablePred P]
    (hf : ∀ d, (f d).deleted = d.deleted ∧ (f d).mode = d.mode ∧ (f d).unit = d.unit ∧
      ((f d).isolated = true → d.isolated = true))
    (hD : ∀ k, D[k]? = if P k then (x.data[k]?).map f else x.data[k]?) : DataLe x D := by
  constructor
  · intro g d' h1
    rw [hD] at h1
    by_cases hP : P g
    · rw [if_pos hP] at h1
      cases h2 : x.data[g]? with
      | none => rw [h2] at h1; cases h1
      | some d =>
        rw [h2] at h1
        obtain rfl := Option.some.inj h1
        exact ⟨d, rfl, hf d⟩
    · rw [if_neg hP] at h1; exact ⟨d', h1, rfl, rfl, rfl, id⟩
  · intro g d h1
    rw [hD]
    by_cases hP : P g
    · rw [if_pos hP, h1]; exact ⟨_, rfl, (hf d).1, (hf d).2.1, (hf d).2.2.1⟩
    · rw [if_neg hP, h1]; exact ⟨d, rfl, rfl, rfl, rfl⟩

/-! ### Removed units -/

/-- Only the trail grew. -/
theorem Core.congrP {bin : Lit → List Lit} {w : Wl} {db : Db α} {x : Vars} {p p' : Pt} (h : Core F ids bin w db x p)
    (hc : CInv x.pres (cls bin db) p') (hv : p'.value = p.value) (hr : ∀ l, p'.Root l ↔ p.Root l) :
    Core F ids bin w db x p' := by
  have hlift : ∀ σ, lift x p' σ = lift x p σ := by intro σ; unfold lift; rw [hv]
  refine ⟨hc, h.wok, h.dbi, ?_, ?_, fun v g d b h1 h2 h3 => (hr _).2 (h.unit v g d b h1 h2 h3), h.iso⟩
  · intro τ hτ
    obtain ⟨a, b, c⟩ := h.s1 τ hτ
    exact ⟨by rw [hlift]; exact a, fun l hl => by rw [hlift]; exact b l ((hr l).1 hl), c⟩
  · rintro σ ⟨a, b, c⟩
    rw [hlift] at a b
    exact h.s2 σ ⟨a, fun l hl => b l ((hr l).2 hl), c⟩

/-- No decisions and nothing propagated. -/
def Zero (p : Pt) : Prop := p.decisions = [] ∧ p.qhead = 0

theorem Core.resurrect {bin : Lit → List Lit} {w : Wl} {db : Db α} {x : Vars} {p : Pt} (h : Core F ids bin w db x p)
    (hz : Zero p) {l : Lit} (ht : p.isTrue l = true) (hp : x.pres l.var) :
    Core F ids bin w db x (p.resurrect l) ∧ Zero (p.resurrect l) ∧ (p.resurrect l).value = p.value ∧
    (p.resurrect l).Att l.var ∧ ∀ v, p.Att v → (p.resurrect l).Att v := by
  unfold Pt.resurrect
  by_cases hr : p.isRemovedUnit l.var = true
  · rw [if_pos hr]
    have hdep : (p.node l.var).depth = none := by unfold Pt.isRemovedUnit at hr; simpa using hr
    have hoff : ∀ m ∈ p.trail, m.var ≠ l.var := by
      intro m hm he
      obtain ⟨k, hk⟩ := Pt.At.of_mem hm
      have := h.c.tr.depth k m hk
      rw [he, hdep] at this; cases this
    obtain ⟨q, hq⟩ : ∃ q, q = ({ p with value := put p.value l.var none } : Pt).enqueue l .unit := ⟨_, rfl⟩
    have hval : q.value = p.value := by
      rw [hq]
      funext v
      show put (put p.value l.var none) l.var (some (!l.isNeg)) v = p.value v
      by_cases hv : v = l.var
      · rw [hv, put_same]; exact (Pt.isTrue_iff.1 ht).symm
      · rw [put_ne _ _ hv, put_ne _ _ hv]
    have htr : q.trail = p.trail ++ [l] := by rw [hq]; rfl
    have hdc : q.decisions = [] := by rw [hq]; exact hz.1
    have hqh : q.qhead = 0 := by rw [hq]; exact hz.2
    have hn : ∀ v, v ≠ l.var → q.node v = p.node v := by
      intro v hv; rw [hq]; exact put_ne _ _ hv
    have hnl : q.node l.var = { reason := .unit, level := 0, depth := some (p.trail.length + 1) } := by
      rw [hq]
      show put p.node l.var _ l.var = _
      rw [put_same, hz.1]; rfl
    have hat : ∀ k m, q.At k m ↔ p.At k m ∨ (k = p.trail.length ∧ m = l) := by
      intro k m
      unfold Pt.At
      rw [htr, List.getElem?_append]
      by_cases hk : k < p.trail.length
      · rw [if_pos hk]
        constructor
        · exact .inl
        · rintro (h1 | h1)
          · exact h1
          · omega
      · rw [if_neg hk, List.getElem?_eq_none (by omega : p.trail.length ≤ k)]
        by_cases hk2 : k = p.trail.length
        · subst hk2
          rw [Nat.sub_self]
          simp only [List.getElem?_cons_zero, Option.some.injEq, reduceCtorEq, false_or, true_and]
          exact eq_comm
        · rw [List.getElem?_eq_none (by simp; omega)]
          simp [hk2]
    rw [← hq]
    have hok : q.Ok := by
      constructor
      · intro m hm
        rw [htr] at hm
        rw [hval]
        rcases List.mem_append.1 hm with hm | hm
        · exact h.c.tr.val m hm
        · simp only [List.mem_singleton] at hm; subst hm; exact Pt.isTrue_iff.1 ht
      · rw [htr, List.map_append, List.nodup_append]
        refine ⟨h.c.tr.nodup, by simp, ?_⟩
        intro v hv u hu
        obtain ⟨m, hm, rfl⟩ := List.mem_map.1 hv
        simp only [List.map_cons, List.map_nil, List.mem_singleton] at hu
        rw [hu]; exact hoff m hm
      · intro k m hk
        rcases (hat k m).1 hk with hk | ⟨rfl, rfl⟩
        · rw [hn _ (hoff m hk.mem)]; exact h.c.tr.depth k m hk
        · rw [hnl]
      · intro k m hk
        unfold Pt.level
        rw [hdc]
        rcases (hat k m).1 hk with hk | ⟨rfl, rfl⟩
        · rw [hn _ (hoff m hk.mem)]
          have := h.c.tr.level k m hk
          unfold Pt.level at this
          rw [this, hz.1]
        · rw [hnl]; rfl
      · intro v hv
        rw [hval] at hv
        by_cases hvl : v = l.var
        · exact .inl ⟨l, by rw [htr]; simp, hvl.symm⟩
        · rcases h.c.tr.off v hv with ⟨m, hm, h1⟩ | h1
          · exact .inl ⟨m, by rw [htr]; simp [hm], h1⟩
          · right; rw [hn v hvl]; exact h1
      · rw [hdc]; exact .nil
      · rw [hdc]; simp
      · rw [hqh]; exact Nat.zero_le _
      · rw [hdc]; simp
    have hatt : ∀ v, p.Att v → q.Att v := by
      intro v ha hv
      rw [hval] at hv
      obtain ⟨m, hm, h1⟩ := ha hv
      exact ⟨m, by rw [htr]; simp [hm], h1⟩
    have hcinv : CInv x.pres (cls bin db) q := by
      refine ⟨hok, h.c.len, h.c.nodup, fun c hc m hm => ⟨(h.c.vars c hc m hm).1, hatt _ (h.c.vars c hc m hm).2⟩,
        h.c.binSym, h.c.binNe, fun k m hm => ⟨(h.c.binVars k m hm).1, hatt _ (h.c.binVars k m hm).2⟩, ?_, ?_, ?_⟩
      · intro m hm
        rw [htr] at hm
        rcases List.mem_append.1 hm with hm | hm
        · exact h.c.pres m hm
        · simp only [List.mem_singleton] at hm; subst hm; exact hp
      · intro k m _ hk; rw [hdc] at hk; cases hk
      · intro k m hk
        rcases (hat k m).1 hk with hk | ⟨rfl, rfl⟩
        · have := h.c.rs k m hk
          unfold ReasonAt Pt.reason at *
          rw [hn _ (hoff m hk.mem), hdc]
          rw [hz.1] at this
          cases hre : (p.node m.var).reason with
          | unit => rw [hre] at this; exact this
          | binary y =>
            rw [hre] at this
            obtain ⟨⟨j, h1, h2⟩, h3⟩ := this
            exact ⟨⟨j, h1, (hat _ _).2 (.inl h2)⟩, h3⟩
          | long c =>
            rw [hre] at this
            obtain ⟨h1, rest, h2, h3⟩ := this
            refine ⟨h1, rest, h2, fun y hy => ?_⟩
            obtain ⟨j, h4, h5⟩ := h3 y hy
            exact ⟨j, h4, (hat _ _).2 (.inl h5)⟩
        · unfold ReasonAt Pt.reason
          rw [hnl, hdc]
          exact .inr rfl
    refine ⟨h.congrP hcinv hval ?_, ⟨hdc, hqh⟩, hval, fun _ => ⟨l, by rw [htr]; simp, rfl⟩, hatt⟩
    intro m
    rw [Pt.root_level0 hok hdc, Pt.root_level0 h.c.tr hz.1]
    unfold Pt.isTrue; rw [hval]
  · rw [if_neg hr]
    refine ⟨h, hz, rfl, ?_, fun v hv => hv⟩
    intro hv
    rcases h.c.tr.off l.var hv with h1 | h1
    · exact h1
    · exact absurd (by unfold Pt.isRemovedUnit; rw [h1]; rfl) hr

theorem Core.resurrectAll {bin : Lit → List Lit} {w : Wl} {db : Db α} {x : Vars} : ∀ (ls : List Lit) {p : Pt},
    Core F ids bin w db x p → Zero p → (∀ l ∈ ls, p.isFalse l = true ∧ x.pres l.var) →
    Core F ids bin w db x (ls.foldl (fun p l => p.resurrect l.neg) p) ∧ Zero (ls.foldl (fun p l => p.resurrect l.neg) p) ∧
    (ls.foldl (fun p l => p.resurrect l.neg) p).value = p.value ∧
    (∀ l ∈ ls, (ls.foldl (fun p l => p.resurrect l.neg) p).Att l.var) ∧
    ∀ v, p.Att v → (ls.foldl (fun p l => p.resurrect l.neg) p).Att v
  | [], p, h, hz, _ => ⟨h, hz, rfl, by simp, fun _ h => h⟩
  | l :: ls, p, h, hz, hf => by
    obtain ⟨h1, h2⟩ := hf l (by simp)
    obtain ⟨a, b, c, d, e⟩ := h.resurrect hz (l := l.neg) (by rw [Pt.isTrue_neg]; exact h1) (by simpa using h2)
    obtain ⟨a', b', c', d', e'⟩ := Core.resurrectAll ls a b (fun m hm => by
      obtain ⟨k1, k2⟩ := hf m (by simp [hm])
      exact ⟨by unfold Pt.isFalse; rw [c]; exact k1, k2⟩)
    rw [List.foldl_cons]
    refine ⟨a', b', c'.trans c, ?_, fun v hv => e' v (e v hv)⟩
    intro m hm
    rcases List.mem_cons.1 hm with rfl | hm
    · simp only [Lit.var_neg] at d; exact e' _ d
    · exact d' m hm

/-! ### The literals of a clause -/

theorem scanLits_spec (p : Pt) : ∀ (ls : List Lit),
    (∀ l ∈ (St.scanLits p ls).1, l ∈ ls) ∧ (∀ l ∈ (St.scanLits p ls).2.1, l ∈ ls ∧ p.isFalse l = true) ∧
    ((St.scanLits p ls).2.2 = true → ∃ l ∈ ls, p.isTrue l = true) ∧
    ((St.scanLits p ls).2.2 = false → (∀ l ∈ (St.scanLits p ls).1, p.value l.var = none) ∧
      ((St.scanLits p ls).1 ++ (St.scanLits p ls).2.1).Perm ls)
  | [] => ⟨by simp [St.scanLits], by simp [St.scanLits], by simp [St.scanLits], by simp [St.scanLits]⟩
  | l :: ls => by
    obtain ⟨h1, h2, h3, h4⟩ := scanLits_spec p ls
    rw [St.scanLits]
    cases hv : p.litValue l with
    | none =>
      simp only
      refine ⟨?_, ?_, ?_, ?_⟩
      · intro m hm
        rcases List.mem_cons.1 hm with rfl | hm
        · simp
        · simp [h1 m hm]
      · intro m hm; exact ⟨by simp [(h2 m hm).1], (h2 m hm).2⟩
      · intro ht; obtain ⟨m, hm, hm2⟩ := h3 ht; exact ⟨m, by simp [hm], hm2⟩
      · intro hf
        obtain ⟨k1, k2⟩ := h4 hf
        refine ⟨?_, ?_⟩
        · intro m hm
          rcases List.mem_cons.1 hm with rfl | hm
          · exact Pt.litValue_none.1 hv
          · exact k1 m hm
        · exact k2.cons l
    | some b =>
      cases b with
      | true =>
        simp only
        refine ⟨fun m hm => hm, by simp, fun _ => ⟨l, by simp, Pt.litValue_true.1 hv⟩, by simp⟩
      | false =>
        simp only
        refine ⟨?_, ?_, ?_, ?_⟩
        · intro m hm; simp [h1 m hm]
        · intro m hm
          rcases List.mem_cons.1 hm with rfl | hm
          · exact ⟨by simp, Pt.litValue_false.1 hv⟩
          · exact ⟨by simp [(h2 m hm).1], (h2 m hm).2⟩
        · intro ht; obtain ⟨m, hm, hm2⟩ := h3 ht; exact ⟨m, by simp [hm], hm2⟩
        · intro hf
          obtain ⟨k1, k2⟩ := h4 hf
          refine ⟨k1, ?_⟩
          exact List.perm_middle.trans (k2.cons l)

theorem clauseSat_perm {a : Asg} {c d : List Lit} (h : c.Perm d) : clauseSat a c ↔ clauseSat a d :=
  ⟨clauseSat_mono (fun l hl => h.mem_iff.1 hl), clauseSat_mono (fun l hl => h.mem_iff.2 hl)⟩

/-- The clause of the formula and the clause of solver literals. -/
theorem clause_iff {a : Abs} {x : Vars} (hn : Names a ids x) (hv : VInv x) {us ms : List Lit}
    (h : List.Forall₂ (LitOk x) us ms) {τ σ : Asg} (hτ : ∀ g, x.Live g → τ (ids g) = σ g) (p : Pt) :
    clauseSat τ (us.map a.lit) ↔ clauseSat (lift x p σ) ms := by
  have key : ∀ l m, LitOk x l m → ((a.lit l).holds τ ↔ m.holds (lift x p σ)) := by
    rintro l m ⟨g, h1, h2, h3⟩
    unfold Lit.holds Abs.lit
    obtain ⟨d, h4, h5, _⟩ := hv.ulive _ _ h1
    rw [lift_pres h2, hn.name, h1, h3]
    simp only [Lit.var_mk', Lit.isNeg_mk', Option.map_some, Option.getD_some, Bool.not_not]
    rw [hτ g ⟨d, h4, h5⟩]
  induction h with
  | nil => simp [clauseSat]
  | @cons l m ls ms h1 h2 ih =>
    rw [List.map_cons, clauseSat_cons, clauseSat_cons]
    exact or_congr (key l m h1) ih

theorem litOk_pres {x : Vars} {us ms : List Lit} (h : List.Forall₂ (LitOk x) us ms) : ∀ m ∈ ms, x.pres m.var := by
  induction h with
  | nil => simp
  | @cons l m ls ms h1 h2 ih =>
    intro y hy
    rcases List.mem_cons.1 hy with rfl | hy
    · obtain ⟨g, _, h3, _⟩ := h1; unfold Vars.pres; rw [h3]; rfl
    · exact ih y hy

end Varisat.Solver
