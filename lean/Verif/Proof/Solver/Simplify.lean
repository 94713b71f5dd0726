import Verif.Proof.Solver.Search
/-!
# Root level simplification: proving units and removing them from the clauses
-/
namespace Varisat.Solver

variable {α : Type} [LinearOrder α]
variable {F : List (List Lit)} {A : List Lit} {ids : Nat → Nat}

/-- The state after the trail was cleared: as `Core`, but clauses may contain assigned variables. -/
structure Loose (F : List (List Lit)) (ids : Nat → Nat) (bin : Lit → List Lit) (db : Db α) (x : Vars)
    (p : Pt) : Prop where
  tr : p.Ok
  trail : p.trail = []
  decs : p.decisions = []
  len : ∀ c, db.Live c → 3 ≤ (db.lits c).length
  nodup : ∀ c, db.Live c → ((db.lits c).map Lit.var).Nodup
  vars : ∀ c, db.Live c → ∀ l ∈ db.lits c, x.pres l.var
  binSym : ∀ l m, m ∈ bin l → l.neg ∈ bin m.neg
  binNe : ∀ l m, m ∈ bin l → m.var ≠ l.var
  binVars : ∀ l m, m ∈ bin l → x.pres m.var
  cb : ∀ l m, m ∈ bin l → p.isTrue l = true → p.isTrue m = true
  cl : ∀ c, db.Live c → (∃ l ∈ db.lits c, p.isTrue l = true) ∨
    ∃ l m, l ∈ db.lits c ∧ m ∈ db.lits c ∧ l ≠ m ∧ p.value l.var = none ∧ p.value m.var = none
  dbi : DbInv db
  s1 : ∀ τ, cnfSat τ F → Holds (cls bin db) x p (fun g => τ (ids g))
  s2 : ∀ σ, Holds (irrs bin db) x p σ → ∃ τ, cnfSat τ F ∧ ∀ g, x.Live g → τ (ids g) = σ g
  unit : ∀ v g d b, x.gfs.map v = some g → x.data[g]? = some d → d.unit = some b → p.Root (Lit.mk' v b)
  iso : ∀ v g d, x.gfs.map v = some g → x.data[g]? = some d → d.isolated = true → ¬ (cls bin db).Used v

theorem lvl_nil (k : Nat) : lvl [] k = 0 := rfl

theorem Pt.root_level0 {p : Pt} (h : p.Ok) (hd : p.decisions = []) {l : Lit} :
    p.Root l ↔ p.isTrue l = true := by
  refine ⟨fun h => h.1, fun ht => ⟨ht, ?_⟩⟩
  have hv : p.value l.var ≠ none := by rw [Pt.isTrue_iff.1 ht]; simp
  rcases h.off _ hv with ⟨m, hm, hmv⟩ | h1
  · obtain ⟨k, hk⟩ := h.at_of_true (l := l) (fun _ => ⟨m, hm, hmv⟩) ht
    exact .inl ⟨k, hk, by rw [hd]; rfl⟩
  · exact .inr h1

theorem Loose.root {bin : Lit → List Lit} {db : Db α} {x : Vars} {p : Pt} (h : Loose F ids bin db x p) {l : Lit} :
    p.Root l ↔ p.isTrue l = true := Pt.root_level0 h.tr h.decs

/-- Replacing the clauses by others which are equivalent given the assigned literals. -/
theorem Loose.change {bin bin' : Lit → List Lit} {db db' : Db α} {x : Vars} {p : Pt} (h : Loose F ids bin db x p)
    (len : ∀ c, db'.Live c → 3 ≤ (db'.lits c).length)
    (nodup : ∀ c, db'.Live c → ((db'.lits c).map Lit.var).Nodup)
    (binSym : ∀ l m, m ∈ bin' l → l.neg ∈ bin' m.neg)
    (binNe : ∀ l m, m ∈ bin' l → m.var ≠ l.var)
    (cb : ∀ l m, m ∈ bin' l → p.isTrue l = true → p.isTrue m = true)
    (cl : ∀ c, db'.Live c → (∃ l ∈ db'.lits c, p.isTrue l = true) ∨
      ∃ l m, l ∈ db'.lits c ∧ m ∈ db'.lits c ∧ l ≠ m ∧ p.value l.var = none ∧ p.value m.var = none)
    (dbi : DbInv db')
    (used : ∀ v, (cls bin' db').Used v → (cls bin db).Used v)
    (h1 : ∀ a, (∀ l, p.isTrue l = true → l.holds a) → (cls bin db).Sat a → (cls bin' db').Sat a)
    (h2 : ∀ a, (∀ l, p.isTrue l = true → l.holds a) → (irrs bin' db').Sat a → (irrs bin db).Sat a) :
    Loose F ids bin' db' x p := by
  have hpres : ∀ v, (cls bin db).Used v → x.pres v := by
    rintro v (⟨c, hc, l, hl, rfl⟩ | ⟨l, m, hm, rfl⟩)
    · exact h.vars c hc l hl
    · exact h.binVars l m hm
  refine ⟨h.tr, h.trail, h.decs, len, nodup, fun c hc l hl => hpres _ (used _ (.inl ⟨c, hc, l, hl, rfl⟩)),
    binSym, binNe, fun l m hm => hpres _ (used _ (.inr ⟨l, m, hm, rfl⟩)), cb, cl, dbi, ?_, ?_, h.unit,
    fun v g d e1 e2 e3 hus => h.iso v g d e1 e2 e3 (used v hus)⟩
  · intro τ hτ
    obtain ⟨a, b, c⟩ := h.s1 τ hτ
    exact ⟨h1 _ (fun l hl => b l (h.root.2 hl)) a, b, c⟩
  · intro σ ⟨a, b, c⟩
    exact h.s2 σ ⟨h2 _ (fun l hl => b l (h.root.2 hl)) a, b, c⟩

/-- Once no clause contains an assigned variable. -/
theorem Loose.core {bin : Lit → List Lit} {db : Db α} {x : Vars} {p : Pt} (h : Loose F ids bin db x p) {w : Wl}
    (hw : w.enabled = false) (hu : ∀ v, (cls bin db).Used v → p.value v = none) : Core F ids bin w db x p := by
  have hnil : ∀ k l, ¬ p.At k l := by intro k l hk; unfold Pt.At at hk; rw [h.trail] at hk; simp at hk
  refine ⟨⟨h.tr, h.len, h.nodup, ?_, h.binSym, h.binNe, ?_, ?_, ?_, ?_⟩, ?_, h.dbi, h.s1, h.s2, h.unit, h.iso⟩
  · intro c hc l hl
    exact ⟨h.vars c hc l hl, fun hne => absurd (hu _ (.inl ⟨c, hc, l, hl, rfl⟩)) hne⟩
  · intro l m hm
    exact ⟨h.binVars l m hm, fun hne => absurd (hu _ (.inr ⟨l, m, hm, rfl⟩)) hne⟩
  · intro l hl; rw [h.trail] at hl; simp at hl
  · intro k l hk; exact absurd hk (hnil k l)
  · intro k l hk; exact absurd hk (hnil k l)
  · intro he; rw [hw] at he; cases he

/-! ### Clearing the trail -/

theorem updateRemoved_foldl : ∀ (ls : List Lit) (p : Pt),
    (ls.foldl (fun p lit => p.updateRemovedUnit lit.var) p).value = p.value ∧
    (ls.foldl (fun p lit => p.updateRemovedUnit lit.var) p).last = p.last ∧
    (ls.foldl (fun p lit => p.updateRemovedUnit lit.var) p).trail = p.trail ∧
    (ls.foldl (fun p lit => p.updateRemovedUnit lit.var) p).qhead = p.qhead ∧
    (ls.foldl (fun p lit => p.updateRemovedUnit lit.var) p).decisions = p.decisions ∧
    (ls.foldl (fun p lit => p.updateRemovedUnit lit.var) p).unitsRemoved = p.unitsRemoved ∧
    (∀ v, (∃ l ∈ ls, l.var = v) → ((ls.foldl (fun p lit => p.updateRemovedUnit lit.var) p).node v).depth = none) ∧
    (∀ v, (p.node v).depth = none → ((ls.foldl (fun p lit => p.updateRemovedUnit lit.var) p).node v).depth = none)
  | [], p => by simp
  | l :: ls, p => by
    obtain ⟨h1, h2, h3, h4, h5, h6, h7, h8⟩ := updateRemoved_foldl ls (p.updateRemovedUnit l.var)
    rw [List.foldl_cons]
    have hn : ∀ v, (v = l.var ∨ (p.node v).depth = none) → ((p.updateRemovedUnit l.var).node v).depth = none := by
      intro v hv
      unfold Pt.updateRemovedUnit
      simp only
      by_cases he : v = l.var
      · subst he; rw [put_same]
      · rw [put_ne _ _ he]; exact hv.resolve_left he
    refine ⟨h1, h2, h3, h4, h5, h6, ?_, fun v hv => h8 v (hn v (.inr hv))⟩
    rintro v ⟨m, hm, rfl⟩
    rcases List.mem_cons.1 hm with rfl | hm
    · exact h8 _ (hn _ (.inl rfl))
    · exact h7 _ ⟨m, hm, rfl⟩

/-- What `prove_units` does with the trail of level 0. -/
theorem St.proveUnits_zero {s : St α} (hp : s.p.Ok) (hd : s.p.decisions = [])
    (hpr : ∀ l ∈ s.p.trail, s.vars.pres l.var) :
    ∃ q L, s.proveUnits = .ok ({ s with p := q, log := L }, !s.p.trail.isEmpty) ∧ q.Ok ∧ q.value = s.p.value ∧
      q.trail = [] ∧ q.decisions = [] ∧ q.qhead = 0 ∧ (s.p.trail = [] → q = s.p ∧ L = s.log) := by
  unfold St.proveUnits
  rw [if_pos (by unfold Pt.curLevel; rw [hd]; rfl)]
  simp only
  obtain ⟨h1, h2, h3, h4, h5, h6, h7, h8⟩ := updateRemoved_foldl s.p.trail s.p
  unfold Pt.clear
  rw [if_pos (h5.trans hd)]
  simp only
  generalize hq : s.p.trail.foldl (fun p lit => p.updateRemovedUnit lit.var) s.p = q at *
  have hok : Pt.Ok { q with unitsRemoved := q.unitsRemoved + q.trail.length, trail := [], qhead := 0 } := by
    refine ⟨by simp, by simp, ?_, ?_, ?_, ?_, ?_, by simp, ?_⟩
    · intro k l hk; unfold Pt.At at hk; simp at hk
    · intro k l hk; unfold Pt.At at hk; simp at hk
    · intro v hv
      right
      have hv : q.value v ≠ none := hv
      rw [h1] at hv
      rcases hp.off v hv with h9 | h9
      · exact h7 v h9
      · exact h8 v h9
    · show q.decisions.Pairwise _; rw [h5, hd]; simp
    · show ∀ d ∈ q.decisions, _; rw [h5, hd]; simp
    · show ∀ d ∈ q.decisions, _; rw [h5, hd]; simp
  by_cases hun : s.unitProofs.isEmpty = true
  · rw [if_pos hun]
    refine ⟨_, s.log, rfl, hok, h1, rfl, h5.trans hd, rfl, ?_⟩
    intro ht
    refine ⟨?_, rfl⟩
    have hqq : q = s.p := by rw [← hq, ht]; rfl
    rw [hqq, ht]
    have := hp.qle
    rw [ht] at this
    have h0 : s.p.qhead = 0 := by simpa using this
    cases hpp : s.p; simp_all
  · rw [if_neg hun]
    obtain ⟨L, hL⟩ := St.emit_ok (s := { s with p := { q with
        unitsRemoved := q.unitsRemoved + q.trail.length
        trail := []
        qhead := 0 } })
      (x := .unitClauses s.unitProofs) (by
        intro l hl
        simp only [stepLits, List.mem_map] at hl
        obtain ⟨y, hy, rfl⟩ := hl
        unfold St.unitProofs at hy
        simp only [List.mem_filterMap] at hy
        obtain ⟨m, hm, hy⟩ := hy
        split at hy
        · cases hy
        · obtain rfl := Option.some.inj hy
          exact hpr m hm)
    rw [hL]
    refine ⟨_, L, rfl, hok, h1, rfl, h5.trans hd, rfl, ?_⟩
    intro ht
    exfalso
    apply hun
    unfold St.unitProofs
    rw [ht]; rfl

/-- Clearing the trail after propagation. -/
theorem Core.loose {bin : Lit → List Lit} {w : Wl} {db : Db α} {x : Vars} {p q : Pt}
    (h : Core F ids bin w db x p) (h2 : Prop2 bin db p) (hq : p.qhead = p.trail.length) (hd : p.decisions = [])
    (hok : q.Ok) (hv : q.value = p.value) (ht : q.trail = []) (hqd : q.decisions = []) :
    Loose F ids bin db x q := by
  have htrue : ∀ l, q.isTrue l = p.isTrue l := by intro l; unfold Pt.isTrue; rw [hv]
  have hroot : ∀ l, q.Root l ↔ p.Root l := by
    intro l; rw [Pt.root_level0 hok hqd, Pt.root_level0 h.c.tr hd, htrue]
  have hlift : ∀ σ, lift x q σ = lift x p σ := lift_congr (fun v _ => by rw [hv])
  have hH : ∀ (C : Cl) σ, Holds C x q σ ↔ Holds C x p σ := by
    intro C σ
    constructor
    · rintro ⟨a, b, c⟩
      rw [hlift] at a b
      exact ⟨a, fun l hl => b l ((hroot l).2 hl), c⟩
    · rintro ⟨a, b, c⟩
      refine ⟨?_, fun l hl => ?_, c⟩ <;> rw [hlift]
      · exact a
      · exact b l ((hroot l).1 hl)
  obtain ⟨c1, c2⟩ := h.c.complete h2.b h2.w hq
  refine ⟨hok, ht, hqd, h.c.len, h.c.nodup, fun c hc l hl => (h.c.vars c hc l hl).1, h.c.binSym, h.c.binNe,
    fun l m hm => (h.c.binVars l m hm).1, ?_, ?_, h.dbi, fun τ hτ => (hH _ _).2 (h.s1 τ hτ),
    fun σ hσ => h.s2 σ ((hH _ _).1 hσ), fun v g d b h1 h2 h3 => (hroot _).2 (h.unit v g d b h1 h2 h3), h.iso⟩
  · simp only [htrue]; exact c1
  · simp only [htrue, hv]; exact c2

/-! ### Removing assigned literals -/

theorem Pt.false_of {p : Pt} {l : Lit} (h1 : p.isTrue l = false) (h2 : p.isUnk l = false) : p.isFalse l = true := by
  by_contra h
  have := Pt.unk_of h1 (by simpa using h)
  rw [← Pt.isUnk_iff, h2] at this; cases this

theorem ok_bind {ε β γ : Type} (a : β) (f : β → Except ε γ) : (Except.ok a >>= f) = f a := rfl

/-- `simplify_binary`. -/
theorem St.simplifyBinary_ok {s : St α} (h : Loose F ids s.bins.byLit s.db s.vars s.p) :
    ∃ b L, s.simplifyBinary = .ok { s with bins := b, log := L } ∧ Loose F ids b.byLit s.db s.vars s.p ∧
      ∀ l m, m ∈ b.byLit l → s.p.value m.var = none := by
  unfold St.simplifyBinary
  simp only
  obtain ⟨L, hL⟩ := St.emitAll_ok (s := s)
    (xs := ((List.range (2 * s.varCount)).map Lit.mk).flatMap s.binSteps) (by
      intro y hy l hl
      rw [List.mem_flatMap] at hy
      obtain ⟨k, _, hy⟩ := hy
      unfold St.binSteps at hy
      simp only [List.mem_map, List.mem_filter] at hy
      obtain ⟨m, ⟨hm, _⟩, rfl⟩ := hy
      simp only [stepLits, List.mem_cons, List.not_mem_nil, or_false] at hl
      rcases hl with rfl | rfl
      · exact h.binVars _ _ (h.binSym _ _ hm)
      · exact h.binVars _ _ hm)
  rw [hL]
  have hk : ∀ l m, m ∈ s.binKeep l ↔ m ∈ s.bins.byLit l ∧ s.p.value l.var = none ∧ s.p.value m.var = none := by
    intro l m
    unfold St.binKeep
    by_cases hu : s.p.isUnk l = true
    · rw [if_pos hu, List.mem_filter, Pt.isUnk_iff]
      rw [Pt.isUnk_iff] at hu
      simp [hu]
    · rw [if_neg hu]
      rw [Pt.isUnk_iff] at hu
      simp [hu]
  refine ⟨_, L, rfl, ?_, fun l m hm => ((hk l m).1 hm).2.2⟩
  refine h.change h.len h.nodup ?_ ?_ ?_ h.cl h.dbi ?_ ?_ ?_
  · intro l m hm
    rw [hk] at hm ⊢
    exact ⟨h.binSym l m hm.1, by simpa using hm.2.2, by simpa using hm.2.1⟩
  · intro l m hm; exact h.binNe l m ((hk l m).1 hm).1
  · intro l m hm; exact h.cb l m ((hk l m).1 hm).1
  · rintro v (hv | ⟨l, m, hm, rfl⟩)
    · exact .inl hv
    · exact .inr ⟨l, m, ((hk l m).1 hm).1, rfl⟩
  · intro a _ hs
    exact ⟨fun l m hm => hs.bin l m ((hk l m).1 hm).1, hs.long⟩
  · intro a ha hs
    refine ⟨fun l m hm hl => ?_, hs.long⟩
    have hm : m ∈ s.bins.byLit l := hm
    by_cases hlt : s.p.isTrue l = true
    · exact ha m (h.cb l m hm hlt)
    by_cases hlu : s.p.isUnk l = true
    · by_cases hmt : s.p.isTrue m = true
      · exact ha m hmt
      by_cases hmu : s.p.isUnk m = true
      · exact hs.bin l m ((hk l m).2 ⟨hm, Pt.isUnk_iff.1 hlu, Pt.isUnk_iff.1 hmu⟩) hl
      · exfalso
        have hmf := Pt.false_of (by simpa using hmt) (by simpa using hmu)
        rw [← Pt.isTrue_neg] at hmf
        have := h.cb m.neg l.neg (h.binSym l m hm) hmf
        rw [Pt.isTrue_neg] at this
        rw [Pt.isUnk_iff] at hlu
        rw [Pt.isFalse_iff, hlu] at this; cases this
    · exfalso
      have hlf := Pt.false_of (by simpa using hlt) (by simpa using hlu)
      rw [← Pt.isTrue_neg] at hlf
      have := ha _ hlf
      rw [Lit.holds_neg] at this
      exact this hl

theorem filter_unk_sat {p : Pt} {ls : List Lit} {a : Asg} (ha : ∀ l, p.isTrue l = true → l.holds a)
    (hnt : ls.any p.isTrue = false) : clauseSat a (ls.filter p.isUnk) ↔ clauseSat a ls := by
  constructor
  · exact clauseSat_mono (fun l hl => (List.mem_filter.1 hl).1)
  · rintro ⟨l, hl, hh⟩
    refine ⟨l, List.mem_filter.2 ⟨hl, ?_⟩, hh⟩
    by_contra hu
    have hlt : p.isTrue l = false := by
      rw [List.any_eq_false] at hnt
      simpa using hnt l hl
    have hlf := Pt.false_of hlt (by simpa using hu)
    rw [← Pt.isTrue_neg] at hlf
    have := ha _ hlf
    rw [Lit.holds_neg] at this
    exact this hh

/-- Deleting a clause that is satisfied, or implied by the other clauses. -/
theorem Loose.delete {bin bin' : Lit → List Lit} {db : Db α} {x : Vars} {p : Pt} (h : Loose F ids bin db x p)
    {c : Nat} (hc : db.Live c)
    (binSym : ∀ l m, m ∈ bin' l → l.neg ∈ bin' m.neg)
    (binNe : ∀ l m, m ∈ bin' l → m.var ≠ l.var)
    (cb : ∀ l m, m ∈ bin' l → p.isTrue l = true → p.isTrue m = true)
    (hsub : ∀ l m, m ∈ bin l → m ∈ bin' l)
    (hus : ∀ l m, m ∈ bin' l → m ∈ bin l ∨ m ∈ db.lits c)
    (h1 : ∀ a, (∀ l, p.isTrue l = true → l.holds a) → (cls bin db).Sat a → ∀ l m, m ∈ bin' l → l.holds a → m.holds a)
    (h2 : ∀ a, (∀ l, p.isTrue l = true → l.holds a) → (∀ l m, m ∈ bin' l → l.holds a → m.holds a) → clauseSat a (db.lits c)) :
    Loose F ids bin' (db.delete c) x p := by
  obtain ⟨d1, d2, d3, d4, d5, d6, d7⟩ := Db.delete_ok h.dbi hc
  refine h.change ?_ ?_ binSym binNe cb ?_ d1 ?_ ?_ ?_
  · intro d hd; rw [d3]; exact h.len d ((d2 d).1 hd).1
  · intro d hd; rw [d3]; exact h.nodup d ((d2 d).1 hd).1
  · intro d hd; rw [d3]; exact h.cl d ((d2 d).1 hd).1
  · rintro v (⟨d, hd, l, hl, rfl⟩ | ⟨l, m, hm, rfl⟩)
    · have hl : l ∈ (db.delete c).lits d := hl
      rw [d3] at hl
      exact .inl ⟨d, ((d2 d).1 hd).1, l, hl, rfl⟩
    · rcases hus l m hm with hm | hm
      · exact .inr ⟨l, m, hm, rfl⟩
      · exact .inl ⟨c, hc, m, hm, rfl⟩
  · intro a ha hs
    refine ⟨h1 a ha hs, fun d hd => ?_⟩
    show clauseSat a ((db.delete c).lits d)
    rw [d3]; exact hs.long d ((d2 d).1 hd).1
  · intro a ha hs
    refine ⟨fun l m hm => hs.bin l m (hsub l m hm), ?_⟩
    rintro d ⟨hd, ht⟩
    by_cases hdc : d = c
    · subst hdc; exact h2 a ha hs.bin
    · have := hs.long d ⟨(d2 d).2 ⟨hd, hdc⟩, by rw [d7 d hdc]; exact ht⟩
      have h3 : clauseSat a ((db.delete c).lits d) := this
      rwa [d3] at h3

/-- The filter of `unit_simplify`. -/
theorem St.simplifyClause_ok {s : St α} (h : Loose F ids s.bins.byLit s.db s.vars s.p) {c : Nat} (hc : s.db.Live c)
    (hb : ∀ l m, m ∈ s.bins.byLit l → s.p.value m.var = none) :
    ∃ b ls L k, s.simplifyClause c = .ok ({ s with
        bins := b
        db := { s.db with lits := put s.db.lits c ls }
        log := L }, k) ∧
      (∀ l m, m ∈ b.byLit l → s.p.value m.var = none) ∧
      (k = true → Loose F ids b.byLit { s.db with lits := put s.db.lits c ls } s.vars s.p ∧
        ∀ l ∈ ls, s.p.value l.var = none) ∧
      (k = false → Loose F ids b.byLit ({ s.db with lits := put s.db.lits c ls }.delete c) s.vars s.p) := by
  have hself : ({ s.db with lits := put s.db.lits c (s.db.lits c) } : Db α) = s.db := by
    have : put s.db.lits c (s.db.lits c) = s.db.lits := by
      funext d; unfold put; split
      · rename_i hd; rw [hd]
      · rfl
    rw [this]
  have hpr := h.vars c hc
  unfold St.simplifyClause
  simp only
  by_cases ht : (s.db.lits c).any s.p.isTrue = true
  · rw [if_pos ht]
    obtain ⟨L, hL⟩ := St.emit_ok (s := s) (x := .deleteClause (s.db.lits c)
      (if (s.db.hdr c).tier ≠ .irred then .redundant else .satisfied)) hpr
    rw [hL]
    refine ⟨s.bins, s.db.lits c, L, false, ?_, hb, by simp, fun _ => ?_⟩
    · rw [hself]; rfl
    · rw [hself]
      refine h.delete hc h.binSym h.binNe h.cb (fun _ _ h => h) (fun l m hm => .inl hm) (fun a _ hs => hs.bin) ?_
      intro a ha _
      rw [List.any_eq_true] at ht
      obtain ⟨l, hl, hlt⟩ := ht
      exact ⟨l, hl, ha l hlt⟩
  · rw [if_neg ht]
    have ht' : (s.db.lits c).any s.p.isTrue = false := by simpa using ht
    have hsat : ∀ a, (∀ l, s.p.isTrue l = true → l.holds a) →
        (clauseSat a ((s.db.lits c).filter s.p.isUnk) ↔ clauseSat a (s.db.lits c)) := fun a ha => filter_unk_sat ha ht'
    have htwo : ∃ l m, l ∈ (s.db.lits c).filter s.p.isUnk ∧ m ∈ (s.db.lits c).filter s.p.isUnk ∧ l ≠ m := by
      rcases h.cl c hc with ⟨l, hl, hlt⟩ | ⟨l, m, h1, h2, h3, h4, h5⟩
      · exfalso; rw [List.any_eq_false] at ht'; exact ht' l hl hlt
      · exact ⟨l, m, List.mem_filter.2 ⟨h1, Pt.isUnk_iff.2 h4⟩, List.mem_filter.2 ⟨h2, Pt.isUnk_iff.2 h5⟩, h3⟩
    have hmem : ∀ l ∈ (s.db.lits c).filter s.p.isUnk, l ∈ s.db.lits c ∧ s.p.value l.var = none := by
      intro l hl; rw [List.mem_filter, Pt.isUnk_iff] at hl; exact hl
    have hnd : (((s.db.lits c).filter s.p.isUnk).map Lit.var).Nodup :=
      (h.nodup c hc).sublist (List.filter_sublist.map _)
    have hlen : ((s.db.lits c).filter s.p.isUnk).length ≤ (s.db.lits c).length := List.length_filter_le ..
    by_cases hl : ((s.db.lits c).filter s.p.isUnk).length < (s.db.lits c).length
    · rw [if_pos hl]
      generalize hnew : (s.db.lits c).filter s.p.isUnk = new at *
      obtain ⟨L, hL⟩ := St.emit_ok (s := s) (x := .atClause (decide ((s.db.hdr c).tier ≠ .irred ∧ new.length > 2)) new
        [clauseHash (s.db.lits c)]) (fun l hl => hpr l (hmem l hl).1)
      rw [hL]
      obtain ⟨L', hL'⟩ := St.emit_ok (s := { s with log := L }) (x := .deleteClause (s.db.lits c)
        (if (s.db.hdr c).tier ≠ .irred then .redundant else .simplified)) hpr
      simp only [ok_bind]
      rw [hL']
      simp only [ok_bind]
      match new, htwo, hmem, hnd, hsat, hlen with
      | [], htwo, _, _, _, _ => obtain ⟨l, m, h1, _⟩ := htwo; simp at h1
      | [l], htwo, _, _, _, _ =>
        obtain ⟨a, b, h1, h2, h3⟩ := htwo
        simp only [List.mem_singleton] at h1 h2; exact absurd (h1.trans h2.symm) h3
      | [l0, l1], htwo, hmem, hnd, hsat, _ =>
        refine ⟨s.bins.add l0 l1, s.db.lits c, L', false, ?_, ?_, by simp, fun _ => ?_⟩
        · rw [hself]; rfl
        · intro l m hm
          rcases Bins.mem_add.1 hm with hm | ⟨_, rfl⟩ | ⟨_, rfl⟩
          · exact hb l m hm
          · exact (hmem _ (by simp)).2
          · exact (hmem _ (by simp)).2
        · have hne : l0.var ≠ l1.var := by simpa using hnd
          rw [hself]
          refine h.delete hc ?_ ?_ ?_ ?_ ?_ ?_ ?_
          · intro l m hm
            rw [Bins.mem_add] at hm ⊢
            rcases hm with hm | ⟨rfl, rfl⟩ | ⟨rfl, rfl⟩
            · exact .inl (h.binSym l m hm)
            · exact .inr (.inr ⟨rfl, by simp⟩)
            · exact .inr (.inl ⟨rfl, by simp⟩)
          · intro l m hm
            rcases Bins.mem_add.1 hm with hm | ⟨rfl, rfl⟩ | ⟨rfl, rfl⟩
            · exact h.binNe l m hm
            · simpa using hne.symm
            · simpa using hne
          · intro l m hm hlt
            rcases Bins.mem_add.1 hm with hm | ⟨rfl, rfl⟩ | ⟨rfl, rfl⟩
            · exact h.cb l m hm hlt
            · have := (hmem l0 (by simp)).2
              rw [Pt.isTrue_neg, Pt.isFalse_iff, this] at hlt; cases hlt
            · have := (hmem l1 (by simp)).2
              rw [Pt.isTrue_neg, Pt.isFalse_iff, this] at hlt; cases hlt
          · intro l m hm; exact Bins.mem_add.2 (.inl hm)
          · intro l m hm
            rcases Bins.mem_add.1 hm with hm | ⟨rfl, rfl⟩ | ⟨rfl, rfl⟩
            · exact .inl hm
            · exact .inr (hmem _ (by simp)).1
            · exact .inr (hmem _ (by simp)).1
          · intro a ha hs l m hm hlh
            have h2 := (hsat a ha).2 (hs.long c hc)
            rw [clauseSat_cons, clauseSat_singleton] at h2
            rcases Bins.mem_add.1 hm with hm | ⟨rfl, rfl⟩ | ⟨rfl, rfl⟩
            · exact hs.bin l m hm hlh
            · rw [Lit.holds_neg] at hlh; exact h2.resolve_left hlh
            · rw [Lit.holds_neg] at hlh; exact h2.resolve_right hlh
          · intro a ha hs
            rw [← hsat a ha, clauseSat_cons, clauseSat_singleton]
            by_cases hh : l0.holds a
            · exact .inl hh
            · right
              exact hs l0.neg l1 (Bins.mem_add.2 (.inr (.inl ⟨rfl, rfl⟩))) (by rw [Lit.holds_neg]; exact hh)
      | l0 :: l1 :: l2 :: tl, htwo, hmem, hnd, hsat, hlen =>
        refine ⟨s.bins, l0 :: l1 :: l2 :: tl, L', true, rfl, hb, fun _ => ⟨?_, fun l hl => (hmem l hl).2⟩, by simp⟩
        have hput : ∀ (P : List Lit → Prop), (P (l0 :: l1 :: l2 :: tl)) → (∀ d, s.db.Live d → P (s.db.lits d)) →
            ∀ d, s.db.Live d → P (put s.db.lits c (l0 :: l1 :: l2 :: tl) d) := by
          intro P h1 h2 d hd
          by_cases hdc : d = c
          · subst hdc; rw [put_same]; exact h1
          · rw [put_ne _ _ hdc]; exact h2 d hd
        refine h.change (hput (fun ls => 3 ≤ ls.length) (by simp) h.len)
          (hput (fun ls => (ls.map Lit.var).Nodup) hnd h.nodup) h.binSym h.binNe h.cb ?_ ?_ ?_ ?_ ?_
        · refine hput (fun ls => (∃ l ∈ ls, s.p.isTrue l = true) ∨
            ∃ l m, l ∈ ls ∧ m ∈ ls ∧ l ≠ m ∧ s.p.value l.var = none ∧ s.p.value m.var = none) ?_ h.cl
          right
          refine ⟨l0, l1, by simp, by simp, ?_, (hmem l0 (by simp)).2, (hmem l1 (by simp)).2⟩
          rintro rfl
          simp at hnd
        · refine Db.relit_ok h.dbi _ (fun d => ?_)
          by_cases hdc : d = c
          · subst hdc; rw [put_same]; exact hlen
          · rw [put_ne _ _ hdc]
        · rintro v (⟨d, hd, l, hl, rfl⟩ | hv)
          · have hl : l ∈ put s.db.lits c (l0 :: l1 :: l2 :: tl) d := hl
            by_cases hdc : d = c
            · subst hdc; rw [put_same] at hl
              exact .inl ⟨d, hd, l, (hmem l hl).1, rfl⟩
            · rw [put_ne _ _ hdc] at hl
              exact .inl ⟨d, hd, l, hl, rfl⟩
          · exact .inr hv
        · intro a ha hs
          exact ⟨hs.bin, hput (fun ls => clauseSat a ls) ((hsat a ha).2 (hs.long c hc)) hs.long⟩
        · intro a ha hs
          refine ⟨hs.bin, ?_⟩
          rintro d ⟨hd, hti⟩
          have h3 : clauseSat a (put s.db.lits c (l0 :: l1 :: l2 :: tl) d) := hs.long d ⟨hd, hti⟩
          show clauseSat a (s.db.lits d)
          by_cases hdc : d = c
          · subst hdc; rw [put_same] at h3; exact (hsat a ha).1 h3
          · rw [put_ne _ _ hdc] at h3; exact h3
    · rw [if_neg hl]
      refine ⟨s.bins, s.db.lits c, s.log, true, ?_, hb, fun _ => ⟨by rw [hself]; exact h, ?_⟩, by simp⟩
      · rw [hself]
      · intro l hlm
        have heq : (s.db.lits c).filter s.p.isUnk = s.db.lits c :=
          List.filter_sublist.eq_of_length (by omega)
        exact (hmem l (by rw [heq]; exact hlm)).2

/-- `filter_clauses` with this filter. -/
theorem St.filterLoop_ok : ∀ (cs : List Nat) {s : St α}, Loose F ids s.bins.byLit s.db s.vars s.p →
    (∀ l m, m ∈ s.bins.byLit l → s.p.value m.var = none) → (∀ c ∈ cs, c ∈ s.db.clauses) → cs.Nodup →
    ∃ b db L ks, filterLoop cs s = .ok ({ s with
        bins := b
        db := db
        log := L }, ks) ∧
      Loose F ids b.byLit db s.vars s.p ∧ (∀ l m, m ∈ b.byLit l → s.p.value m.var = none) ∧
      db.clauses = s.db.clauses ∧ (∀ d, d ∉ cs → db.hdr d = s.db.hdr d ∧ db.lits d = s.db.lits d) ∧
      ks = cs.filter (fun c => !(db.hdr c).deleted) ∧
      (∀ c ∈ cs, db.Live c → ∀ l ∈ db.lits c, s.p.value l.var = none)
  | [], s, h, hb, _, _ => ⟨s.bins, s.db, s.log, [], rfl, h, hb, rfl, fun _ _ => ⟨rfl, rfl⟩, rfl, by simp⟩
  | c :: cs, s, h, hb, hm, hnd => by
    obtain ⟨hnc, hnd⟩ := List.nodup_cons.1 hnd
    rw [filterLoop]
    by_cases hdel : (s.db.hdr c).deleted = true
    · rw [if_pos hdel]
      obtain ⟨b, db, L, ks, e1, e2, e3, e4, e5, e6, e7⟩ := filterLoop_ok cs h hb (fun d hd => hm d (by simp [hd])) hnd
      have hc := (e5 c hnc).1
      refine ⟨b, db, L, ks, e1, e2, e3, e4, fun d hd => e5 d (fun h => hd (by simp [h])), ?_, ?_⟩
      · rw [List.filter_cons, if_neg]
        · exact e6
        · rw [hc, hdel]; simp
      · intro d hd hl
        rcases List.mem_cons.1 hd with rfl | hd
        · have := hl.2; rw [hc, hdel] at this; cases this
        · exact e7 d hd hl
    · rw [if_neg hdel]
      have hc : s.db.Live c := ⟨hm c (by simp), by simpa using hdel⟩
      obtain ⟨b1, ls, L1, k, f1, f2, f3, f4⟩ := St.simplifyClause_ok h hc hb
      rw [f1]
      simp only [ok_bind]
      cases k with
      | true =>
        obtain ⟨f5, f6⟩ := f3 rfl
        obtain ⟨b, db, L, ks, e1, e2, e3, e4, e5, e6, e7⟩ := filterLoop_ok cs (s := { s with
          bins := b1
          db := { s.db with lits := put s.db.lits c ls }
          log := L1 }) f5 f2 (fun d hd => hm d (by simp [hd])) hnd
        rw [if_pos rfl, e1]
        have hcc := e5 c hnc
        refine ⟨b, db, L, c :: ks, rfl, e2, e3, e4, ?_, ?_, ?_⟩
        · intro d hd
          obtain ⟨g1, g2⟩ := e5 d (fun h => hd (by simp [h]))
          refine ⟨g1, ?_⟩
          rw [g2]
          exact put_ne _ _ (fun h : d = c => hd (by simp [h]))
        · rw [List.filter_cons, if_pos, ← e6]
          rw [hcc.1]; simpa using hdel
        · intro d hd hl
          rcases List.mem_cons.1 hd with rfl | hd
          · rw [hcc.2]
            show ∀ l ∈ put s.db.lits d ls d, _
            rw [put_same]
            exact f6
          · exact e7 d hd hl
      | false =>
        have f5 := f4 rfl
        have hl1 : Db.Live { s.db with lits := put s.db.lits c ls } c := hc
        obtain ⟨b, db, L, ks, e1, e2, e3, e4, e5, e6, e7⟩ := filterLoop_ok cs (s := { s with
          bins := b1
          db := { s.db with lits := put s.db.lits c ls }.delete c
          log := L1 }) f5 f2 (fun d hd => hm d (by simp [hd])) hnd
        rw [if_neg (by simp), e1]
        have hcc := e5 c hnc
        have hcd : (db.hdr c).deleted = true := by
          rw [hcc.1]; show (put s.db.hdr c _ c).deleted = true; rw [put_same]
        refine ⟨b, db, L, ks, rfl, e2, e3, e4, ?_, ?_, ?_⟩
        · intro d hd
          obtain ⟨g1, g2⟩ := e5 d (fun h => hd (by simp [h]))
          have hdc : d ≠ c := fun h : d = c => hd (by simp [h])
          exact ⟨g1.trans (put_ne _ _ hdc), g2.trans (put_ne _ _ hdc)⟩
        · rw [List.filter_cons, if_neg]
          · exact e6
          · rw [hcd]; simp
        · intro d hd hl
          rcases List.mem_cons.1 hd with rfl | hd
          · have := hl.2; rw [hcd] at this; cases this
          · exact e7 d hd hl

end Varisat.Solver
