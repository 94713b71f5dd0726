import Verif.Proof.Solver.Sem
/-!
# Adding, deleting and moving clauses
-/
namespace Varisat.Solver

variable {α : Type} [LinearOrder α]

theorem Bins.mem_add {b : Bins} {l0 l1 l m : Lit} :
    m ∈ (b.add l0 l1).byLit l ↔ m ∈ b.byLit l ∨ (l = l0.neg ∧ m = l1) ∨ (l = l1.neg ∧ m = l0) := by
  unfold Bins.add put
  simp only
  by_cases h1 : l = l1.neg
  · subst h1
    by_cases h2 : l1.neg = l0.neg
    · simp [h2, or_assoc]
    · simp [h2]
  · by_cases h2 : l = l0.neg
    · subst h2; simp [h1]
    · simp [h1, h2]

/-- Adding a binary clause. -/
theorem CInv.addBin {pres : Nat → Prop} {C : Cl} {p : Pt} (h : CInv pres C p) {bin' : Lit → List Lit} {l0 l1 : Lit}
    (hb : ∀ l m, m ∈ bin' l ↔ m ∈ C.bin l ∨ (l = l0.neg ∧ m = l1) ∨ (l = l1.neg ∧ m = l0))
    (hne : l0.var ≠ l1.var) (h0 : pres l0.var ∧ p.Att l0.var) (h1 : pres l1.var ∧ p.Att l1.var) :
    CInv pres ⟨bin', C.lits, C.live⟩ p := by
  refine ⟨h.tr, h.len, h.nodup, h.vars, ?_, ?_, ?_, h.pres, h.dec, ?_⟩
  · intro l m hm
    simp only [hb] at hm ⊢
    rcases hm with hm | ⟨rfl, rfl⟩ | ⟨rfl, rfl⟩
    · exact .inl (h.binSym l m hm)
    · exact .inr (.inr ⟨rfl, by simp⟩)
    · exact .inr (.inl ⟨rfl, by simp⟩)
  · intro l m hm
    simp only [hb] at hm
    rcases hm with hm | ⟨rfl, rfl⟩ | ⟨rfl, rfl⟩
    · exact h.binNe l m hm
    · simpa using hne.symm
    · simpa using hne
  · intro l m hm
    simp only [hb] at hm
    rcases hm with hm | ⟨rfl, rfl⟩ | ⟨rfl, rfl⟩
    · exact h.binVars l m hm
    · exact h1
    · exact h0
  · intro k l hk
    have hr := h.rs k l hk
    unfold ReasonAt at *
    cases hre : p.reason l.var with
    | unit => simpa only [hre] using hr
    | binary y =>
      simp only [hre] at hr ⊢
      exact ⟨hr.1, (hb _ _).2 (.inl hr.2)⟩
    | long c => simpa only [hre] using hr

/-- Adding a long clause under a new reference. -/
theorem CInv.addLong {pres : Nat → Prop} {C C' : Cl} {p : Pt} (h : CInv pres C p) {c : Nat} (hc : ¬ C.live c)
    (hbin : C'.bin = C.bin) (hlive : ∀ d, C'.live d ↔ C.live d ∨ d = c) (hlits : ∀ d, d ≠ c → C'.lits d = C.lits d)
    (hlen : 3 ≤ (C'.lits c).length) (hnd : ((C'.lits c).map Lit.var).Nodup)
    (hv : ∀ l ∈ C'.lits c, pres l.var ∧ p.Att l.var) : CInv pres C' p := by
  have hne : ∀ d, C.live d → d ≠ c := fun d hd he => hc (he ▸ hd)
  have key : ∀ (P : List Lit → Prop), P (C'.lits c) → (∀ d, C.live d → P (C.lits d)) →
      ∀ d, C'.live d → P (C'.lits d) := by
    intro P h1 h2 d hd
    rcases (hlive d).1 hd with hd | rfl
    · rw [hlits d (hne d hd)]; exact h2 d hd
    · exact h1
  refine ⟨h.tr, key (fun ls => 3 ≤ ls.length) hlen h.len, key (fun ls => (ls.map Lit.var).Nodup) hnd h.nodup,
    key (fun ls => ∀ l ∈ ls, pres l.var ∧ p.Att l.var) hv h.vars, by rw [hbin]; exact h.binSym,
    by rw [hbin]; exact h.binNe, by rw [hbin]; exact h.binVars, h.pres, h.dec, ?_⟩
  intro k l hk
  have hr := h.rs k l hk
  unfold ReasonAt at *
  cases hre : p.reason l.var with
  | unit => simpa only [hre] using hr
  | binary y => simp only [hre] at hr ⊢; rw [hbin]; exact hr
  | long d =>
    simp only [hre] at hr ⊢
    rw [hlits d (hne d hr.1)]
    exact ⟨(hlive d).2 (.inl hr.1), hr.2⟩

namespace Core
variable {F F' : List (List Lit)} {ids : Nat → Nat} {bin : Lit → List Lit} {w : Wl} {db : Db α} {x : Vars}
  {p : Pt}

/-- Adding a binary clause. -/
theorem addBin (h : Core F ids bin w db x p) {bin' : Lit → List Lit} {l0 l1 : Lit}
    (hb : ∀ l m, m ∈ bin' l ↔ m ∈ bin l ∨ (l = l0.neg ∧ m = l1) ∨ (l = l1.neg ∧ m = l0))
    (hne : l0.var ≠ l1.var) (hp0 : x.pres l0.var ∧ p.Att l0.var) (hp1 : x.pres l1.var ∧ p.Att l1.var)
    (hiso : ∀ l, l = l0 ∨ l = l1 → ∀ g d, x.gfs.map l.var = some g → x.data[g]? = some d → d.isolated = false)
    (h1 : ∀ τ, cnfSat τ F' → cnfSat τ F ∧ clauseSat (lift x p (fun g => τ (ids g))) [l0, l1])
    (h2 : ∀ σ, clauseSat (lift x p σ) [l0, l1] → ∀ τ, cnfSat τ F →
      (∀ g, x.Live g → τ (ids g) = σ g) → cnfSat τ F') :
    Core F' ids bin' w db x p := by
  have hc' : CInv x.pres (cls bin' db) p := CInv.addBin h.c hb hne hp0 hp1
  refine ⟨hc', ?_, h.dbi, ?_, ?_, h.unit, ?_⟩
  · intro he
    exact Db.WOk.congr (h.wok he) rfl (fun _ => Iff.rfl)
  · intro τ hτ
    obtain ⟨k1, k2⟩ := h1 τ hτ
    obtain ⟨a, b, c⟩ := h.s1 τ k1
    refine ⟨⟨?_, a.long⟩, b, c⟩
    intro l m hm hl
    rcases (hb l m).1 hm with hm | ⟨rfl, rfl⟩ | ⟨rfl, rfl⟩
    · exact a.bin l m hm hl
    · rw [Lit.holds_neg] at hl
      rw [clauseSat_cons, clauseSat_singleton] at k2
      exact k2.resolve_left hl
    · rw [Lit.holds_neg] at hl
      rw [clauseSat_cons, clauseSat_singleton] at k2
      exact k2.resolve_right hl
  · intro σ hσ
    obtain ⟨a, b, c⟩ := hσ
    obtain ⟨τ, t1, t2⟩ := h.s2 σ ⟨a.weaken (fun l m hm => (hb l m).2 (.inl hm)) (fun c hc => ⟨c, hc, fun _ h => h⟩), b, c⟩
    refine ⟨τ, h2 σ ?_ τ t1 t2, t2⟩
    rw [clauseSat_cons, clauseSat_singleton]
    by_cases hh : l0.holds (lift x p σ)
    · exact .inl hh
    · right
      exact a.bin l0.neg l1 ((hb _ _).2 (.inr (.inl ⟨rfl, rfl⟩))) (by rw [Lit.holds_neg]; exact hh)
  · intro v g d h3 h4 h5 hus
    rcases hus with hus | ⟨l, m, hm, rfl⟩
    · exact h.iso v g d h3 h4 h5 (.inl hus)
    · rcases (hb l m).1 hm with hm | ⟨_, rfl⟩ | ⟨_, rfl⟩
      · exact h.iso _ g d h3 h4 h5 (.inr ⟨l, m, hm, rfl⟩)
      · rw [hiso m (.inr rfl) g d h3 h4] at h5; cases h5
      · rw [hiso m (.inl rfl) g d h3 h4] at h5; cases h5

theorem _root_.Varisat.Solver.Prop2.addBin {bin' : Lit → List Lit} {l0 l1 : Lit} (h : Prop2 bin db p)
    (hb : ∀ l m, m ∈ bin' l ↔ m ∈ bin l ∨ (l = l0.neg ∧ m = l1) ∨ (l = l1.neg ∧ m = l0))
    (h0 : p.Done l0.neg → p.isTrue l1 = true ∧ p.level l1.var ≤ p.level l0.var)
    (h1 : p.Done l1.neg → p.isTrue l0 = true ∧ p.level l0.var ≤ p.level l1.var) : Prop2 bin' db p := by
  refine ⟨?_, h.w⟩
  intro l hl m hm
  rcases (hb l m).1 hm with hm | ⟨rfl, rfl⟩ | ⟨rfl, rfl⟩
  · exact h.b l hl m hm
  · left; simpa using h0 hl
  · left; simpa using h1 hl

/-- Adding a long clause. -/
theorem addLong (h : Core F ids bin w db x p) {hd : Hdr α} (hxd : hd.deleted = false) (hxm : hd.mark = false)
    (hxg : hd.tier = .irred → hd.glue = 0) {lits : List Lit} (hlen : 3 ≤ lits.length)
    (hnd : (lits.map Lit.var).Nodup) (hv : ∀ l ∈ lits, x.pres l.var ∧ p.Att l.var)
    (hiso : ∀ l ∈ lits, ∀ g d, x.gfs.map l.var = some g → x.data[g]? = some d → d.isolated = false)
    (h1 : ∀ τ, cnfSat τ F' → cnfSat τ F ∧ clauseSat (lift x p (fun g => τ (ids g))) lits)
    (h2 : ∀ σ, (hd.tier = .irred → clauseSat (lift x p σ) lits) → ∀ τ, cnfSat τ F →
      (∀ g, x.Live g → τ (ids g) = σ g) → cnfSat τ F') :
    ∃ db' w', db.addClause w hd lits = some (db', w', db.size) ∧ Core F' ids bin w' db' x p ∧
      (∀ c, db'.Live c ↔ db.Live c ∨ c = db.size) ∧ db'.lits = put db.lits db.size lits ∧
      db'.hdr = put db.hdr db.size hd := by
  obtain ⟨db', w', l0, l1, tl, e1, e2, e3, e4, e5, e6, e7⟩ := Db.addClause_ok h.dbi w hxd hxm hxg hlen
  refine ⟨db', w', e2, ?_, e5, e6, e7⟩
  have hnl : ¬ db.Live db.size := fun hl => absurd (h.dbi.lt _ hl.1) (by omega)
  have hne : ∀ d, db.Live d → d ≠ db.size := fun d hd he => hnl (he ▸ hd)
  have hself : db'.lits db.size = lits := by rw [e6, put_same]
  have hoth : ∀ d, d ≠ db.size → db'.lits d = db.lits d := fun d hd => by rw [e6, put_ne _ _ hd]
  have hc' : CInv x.pres (cls bin db') p := by
    refine CInv.addLong (C' := cls bin db') h.c (c := db.size) hnl rfl e5 hoth ?_ ?_ ?_
    · show 3 ≤ (db'.lits db.size).length; rw [hself]; exact hlen
    · show ((db'.lits db.size).map Lit.var).Nodup; rw [hself]; exact hnd
    · show ∀ l ∈ db'.lits db.size, _; rw [hself]; exact hv
  refine ⟨hc', ?_, e4, ?_, ?_, h.unit, ?_⟩
  · intro he
    rw [e3] at he ⊢
    unfold Wl.watchClause at *
    by_cases hen : w.enabled = true
    · rw [if_pos hen]
      refine WOk.add (C' := cls bin db') (h.wok hen) (c := db.size) hnl (tl := tl) ?_ ?_
        (fun d hd => hoth d (hne d hd)) e5
      · show db'.lits db.size = _; rw [hself, e1]
      · rintro rfl; rw [e1] at hnd; simp at hnd
    · rw [if_neg hen] at he; exact absurd he hen
  · intro τ hτ
    obtain ⟨k1, k2⟩ := h1 τ hτ
    obtain ⟨a, b, c⟩ := h.s1 τ k1
    refine ⟨⟨a.bin, ?_⟩, b, c⟩
    intro d hd
    show clauseSat _ (db'.lits d)
    rcases (e5 d).1 hd with hd | rfl
    · rw [hoth d (hne d hd)]; exact a.long d hd
    · rw [hself]; exact k2
  · intro σ hσ
    obtain ⟨a, b, c⟩ := hσ
    have a' : (irrs bin db).Sat (lift x p σ) := by
      refine a.weaken (fun _ _ h => h) ?_
      rintro d ⟨hd1, hd2⟩
      refine ⟨d, ⟨(e5 d).2 (.inl hd1), ?_⟩, ?_⟩
      · rw [e7, put_ne _ _ (hne d hd1)]; exact hd2
      · show ∀ l ∈ db'.lits d, _; rw [hoth d (hne d hd1)]; exact fun _ h => h
    obtain ⟨τ, t1, t2⟩ := h.s2 σ ⟨a', b, c⟩
    refine ⟨τ, h2 σ ?_ τ t1 t2, t2⟩
    intro hirr
    have := a.long db.size ⟨(e5 _).2 (.inr rfl), by rw [e7, put_same]; exact hirr⟩
    have h3 : clauseSat (lift x p σ) (db'.lits db.size) := this
    rwa [hself] at h3
  · intro v g d h3 h4 h5 hus
    rcases hus with ⟨c, hc, l, hl, rfl⟩ | hus
    · have hl : l ∈ db'.lits c := hl
      rcases (e5 c).1 hc with hc | rfl
      · rw [hoth c (hne c hc)] at hl
        exact h.iso _ g d h3 h4 h5 (.inl ⟨c, hc, l, hl, rfl⟩)
      · rw [hself] at hl
        rw [hiso l hl g d h3 h4] at h5; cases h5
    · exact h.iso v g d h3 h4 h5 (.inr hus)

theorem _root_.Varisat.Solver.Prop2.addLong {db' : Db α} {lits : List Lit} (h : Prop2 bin db p) (hnl : ¬ db.Live db.size)
    (e5 : ∀ c, db'.Live c ↔ db.Live c ∨ c = db.size) (e6 : db'.lits = put db.lits db.size lits)
    (hw : ∀ y ∈ lits.take 2, p.Done y.neg → ∃ t ∈ lits, p.isTrue t = true ∧ p.level t.var ≤ p.level y.var) :
    Prop2 bin db' p := by
  refine ⟨h.b, ?_⟩
  intro c hc y hy hdn
  have hy : y ∈ (db'.lits c).take 2 := hy
  show (∃ t ∈ db'.lits c, _) ∨ _
  rcases (e5 c).1 hc with hc | rfl
  · rw [e6, put_ne _ _ (fun he : c = db.size => hnl (he ▸ hc))] at hy ⊢
    exact h.w c hc y hy hdn
  · rw [e6, put_same] at hy ⊢
    exact .inl (hw y hy hdn)

end Core

/-- The clauses of `db'` are some of those of `db` under new references, with all irredundant ones
and all reasons; reasons are renamed. -/
structure DbMap (db db' : Db α) (p p' : Pt) (f : Nat → Nat) : Prop where
  live : ∀ d, db'.Live d → ∃ c, db.Live c ∧ f c = d ∧ db'.lits d = db.lits c
  irr : ∀ c, db.Live c → (db.hdr c).tier = .irred → db'.Live (f c) ∧ db'.lits (f c) = db.lits c ∧
    (db'.hdr (f c)).tier = .irred
  rs : ∀ l ∈ p.trail, ∀ c, p.reason l.var = .long c → db.Live c → (∃ tl, db.lits c = l :: tl) →
    db'.Live (f c) ∧ db'.lits (f c) = db.lits c
  node : Db.NodeSame p p'
  reason : ∀ l ∈ p.trail, p'.reason l.var = (p.reason l.var).rename f

theorem Db.NodeSame.at_ {p q : Pt} (h : Db.NodeSame p q) {k : Nat} {l : Lit} : q.At k l ↔ p.At k l := by
  unfold Pt.At; rw [h.trail]
theorem Db.NodeSame.isTrue {p q : Pt} (h : Db.NodeSame p q) (l : Lit) : q.isTrue l = p.isTrue l := by
  unfold Pt.isTrue; rw [h.value]
theorem Db.NodeSame.done {p q : Pt} (h : Db.NodeSame p q) {l : Lit} : q.Done l ↔ p.Done l := by
  unfold Pt.Done; simp only [h.at_, h.qhead]
theorem Db.NodeSame.root {p q : Pt} (h : Db.NodeSame p q) {l : Lit} : q.Root l ↔ p.Root l := by
  unfold Pt.Root; simp only [h.at_, h.isTrue, h.decisions, h.depth]
theorem Db.NodeSame.att {p q : Pt} (h : Db.NodeSame p q) {v : Nat} : q.Att v ↔ p.Att v := by
  unfold Pt.Att; rw [h.value, h.trail]
theorem Db.NodeSame.ok {p q : Pt} (h : Db.NodeSame p q) (hp : p.Ok) : q.Ok := by
  constructor
  · rw [h.trail, h.value]; exact hp.val
  · rw [h.trail]; exact hp.nodup
  · intro k l hk; rw [h.depth]; exact hp.depth k l (h.at_.1 hk)
  · intro k l hk
    have := hp.level k l (h.at_.1 hk)
    unfold Pt.level at *; rw [h.level, h.decisions]; exact this
  · intro v; rw [h.value, h.trail, h.depth]; exact hp.off v
  · rw [h.decisions]; exact hp.sorted
  · rw [h.decisions, h.trail]; exact hp.dlt
  · rw [h.qhead, h.trail]; exact hp.qle
  · rw [h.decisions, h.qhead]; exact hp.dq

namespace DbMap
variable {F : List (List Lit)} {ids : Nat → Nat} {bin : Lit → List Lit} {w : Wl} {db db' : Db α} {x : Vars}
  {p p' : Pt} {f : Nat → Nat}

theorem cinv {pres : Nat → Prop} (m : DbMap db db' p p' f) (h : CInv pres (cls bin db) p) :
    CInv pres (cls bin db') p' := by
  have key : ∀ (P : List Lit → Prop), (∀ d, db.Live d → P (db.lits d)) → ∀ d, db'.Live d → P (db'.lits d) := by
    intro P h2 d hd
    obtain ⟨c, h3, h4, h5⟩ := m.live d hd
    rw [h5]; exact h2 c h3
  refine ⟨m.node.ok h.tr, key (fun ls => 3 ≤ ls.length) h.len, key (fun ls => (ls.map Lit.var).Nodup) h.nodup, ?_, h.binSym, h.binNe, ?_, ?_, ?_, ?_⟩
  · simp only [m.node.att]
    exact key (fun ls => ∀ l ∈ ls, pres l.var ∧ p.Att l.var) h.vars
  · simp only [m.node.att]; exact h.binVars
  · rw [m.node.trail]; exact h.pres
  · intro k l hk hkd
    rw [m.node.at_] at hk
    rw [m.node.decisions] at hkd
    rw [m.reason l hk.mem, h.dec k l hk hkd]; rfl
  · intro k l hk
    rw [m.node.at_] at hk
    have hr := h.rs k l hk
    unfold ReasonAt at *
    rw [m.reason l hk.mem]
    cases hre : p.reason l.var with
    | unit => simp only [hre, Reason.rename] at hr ⊢; rw [m.node.decisions]; exact hr
    | binary y => simp only [hre, Reason.rename] at hr ⊢; simp only [m.node.at_]; exact hr
    | long c =>
      simp only [hre, Reason.rename] at hr ⊢
      obtain ⟨h1, rest, h2, h3⟩ := hr
      obtain ⟨h4, h5⟩ := m.rs l hk.mem c hre h1 ⟨rest, h2⟩
      refine ⟨h4, rest, h5.trans h2, ?_⟩
      simp only [m.node.at_]; exact h3

theorem core (m : DbMap db db' p p' f) (h : Core F ids bin w db x p) (hdb : DbInv db') {w' : Wl}
    (hw : w'.enabled = true → WOk (cls bin db') w'.watches) : Core F ids bin w' db' x p' := by
  have hlift : ∀ σ, lift x p' σ = lift x p σ := lift_congr (fun v _ => by rw [m.node.value])
  refine ⟨m.cinv h.c, hw, hdb, ?_, ?_, ?_, ?_⟩
  · intro τ hτ
    obtain ⟨a, b, c⟩ := h.s1 τ hτ
    refine ⟨?_, ?_, c⟩
    · rw [hlift]
      refine a.weaken (fun _ _ h => h) ?_
      intro d hd
      obtain ⟨c, h3, h4, h5⟩ := m.live d hd
      refine ⟨c, h3, ?_⟩
      show ∀ l ∈ db.lits c, l ∈ db'.lits d
      rw [h5]; exact fun _ h => h
    · intro l hl; rw [hlift]; exact b l (m.node.root.1 hl)
  · intro σ ⟨a, b, c⟩
    rw [hlift] at a b
    refine h.s2 σ ⟨a.weaken (fun _ _ h => h) ?_, fun l hl => b l (m.node.root.2 hl), c⟩
    rintro d ⟨hd1, hd2⟩
    obtain ⟨h3, h4, h5⟩ := m.irr d hd1 hd2
    refine ⟨f d, ⟨h3, h5⟩, ?_⟩
    show ∀ l ∈ db'.lits (f d), l ∈ db.lits d
    rw [h4]; exact fun _ h => h
  · intro v g d b h1 h2 h3; exact m.node.root.2 (h.unit v g d b h1 h2 h3)
  · intro v g d h1 h2 h3 hus
    apply h.iso v g d h1 h2 h3
    rcases hus with ⟨c, hc, l, hl, rfl⟩ | hus
    · obtain ⟨c', h3, h4, h5⟩ := m.live c hc
      refine .inl ⟨c', h3, l, ?_, rfl⟩
      have hl : l ∈ db'.lits c := hl
      rwa [h5] at hl
    · exact .inr hus

theorem prop2 (m : DbMap db db' p p' f) (h : Prop2 bin db p) : Prop2 bin db' p' := by
  have hlev : ∀ v, p'.level v = p.level v := m.node.level
  constructor
  · intro l hl y hy
    rw [m.node.done] at hl
    rw [m.node.isTrue, hlev, hlev]
    exact h.b l hl y hy
  · intro c hc y hy hdn
    rw [m.node.done] at hdn
    obtain ⟨c', h3, h4, h5⟩ := m.live c hc
    have hy : y ∈ (db'.lits c).take 2 := hy
    show (∃ t ∈ db'.lits c, _) ∨ _
    rw [h5] at hy ⊢
    simp only [m.node.isTrue, hlev]
    exact h.w c' h3 y hy hdn

end DbMap

theorem DbSame.map {db db' : Db α} (h : DbSame db db') (p : Pt) : DbMap db db' p p id := by
  refine ⟨fun d hd => ⟨d, (h.live d).1 hd, rfl, by rw [h.lits]⟩, fun c hc ht => ⟨(h.live c).2 hc, by rw [h.lits]; rfl, ?_⟩,
    fun l _ c _ hc _ => ⟨(h.live c).2 hc, by rw [h.lits]; rfl⟩, Db.NodeSame.refl p, fun l _ => ?_⟩
  · exact (h.irr c hc).2 ht
  · cases p.reason l.var <;> rfl

theorem Db.Reduced.map {db db' : Db α} {p : Pt} {w w' : Wl} {dels : List Nat} (h : Db.Reduced db p w db' w' dels)
    (hp : p.Ok) : DbMap db db' p p id := by
  refine ⟨fun d hd => ⟨d, ((h.live d).1 hd).1, rfl, by rw [h.lits]⟩, fun c hc ht => ?_,
    fun l hl c hr hc hcl => ?_, Db.NodeSame.refl p, fun l _ => ?_⟩
  · have : db'.Live c := (h.live c).2 ⟨hc, fun hd => by
      have := (h.only c hd).2.1
      rw [ht] at this; cases this⟩
    exact ⟨this, by rw [h.lits]; rfl, by rw [show id c = c from rfl, h.hdr c this]; exact ht⟩
  · refine ⟨(h.live c).2 ⟨hc, fun hd => ?_⟩, by rw [h.lits]; rfl⟩
    have := (h.only c hd).2.2
    obtain ⟨tl, hcl⟩ := hcl
    unfold Db.asserting at this
    rw [hcl] at this
    simp only [Option.some.injEq, Bool.and_eq_false_iff] at this
    rcases this with this | this
    · rw [Pt.isTrue_iff.2 (hp.val l hl)] at this; cases this
    · rw [hr] at this; simp at this
  · cases p.reason l.var <;> rfl

theorem Collected.map {db db' : Db α} {p p' : Pt} {g : Nat → Nat} (h : Collected db p db' p' g) :
    DbMap db db' p p' g := by
  refine ⟨fun d hd => ?_, fun c hc ht => ⟨(h.live _).2 ⟨c, hc, rfl⟩, h.lits c hc, by rw [h.hdr c hc]; exact ht⟩,
    fun l _ c _ hc _ => ⟨(h.live _).2 ⟨c, hc, rfl⟩, h.lits c hc⟩, h.node, h.reason⟩
  obtain ⟨c, h1, rfl⟩ := (h.live d).1 hd
  exact ⟨c, h1, rfl, h.lits c h1⟩

end Varisat.Solver
