import Verif.Proof.Solver.SimOps
/-!
# Clauses and assumptions of the user, as the checker sees them
-/
namespace Varisat.Solver

open Api (Abs)
open Checker (View LitsOk SamplingMode hashOf)

variable {α : Type} [LinearOrder α]
variable {a : Option Abs} {x : Vars} {p q : Pt} {st : Bool → List Lit → Nat} {V : View} {l : Lit} {s s' : St α} {e : Env α}
variable {F : List (List Lit)} {A : List Lit} {ids : Nat → Nat}

theorem View.store_known {r : Bool} {k : Lit} (h : V.True k) : V.store r [k] = V := by
  unfold View.True at h
  simp [View.store, h]

theorem View.store_new {r : Bool} {k : Lit} (h : V.unit k.var = none) :
    V.store r [k] = { V with unit := Checker.upd V.unit k.var (some (!k.isNeg)) } := by
  simp [View.store, h]

theorem View.store_false {r : Bool} {k : Lit} (h : V.True k.neg) : V.store r [k] = { V with unsat := true } := by
  have h' : V.unit k.var = some k.isNeg := by simpa [View.True] using h
  simp only [View.store, h']
  rw [if_neg (by cases k.isNeg <;> simp)]

theorem View.True.cases (V : View) (k : Lit) : V.True k ∨ V.True k.neg ∨ V.unit k.var = none := by
  unfold View.True
  simp only [Lit.var_neg, Lit.isNeg_neg, Bool.not_not]
  cases V.unit k.var with
  | none => simp
  | some b => cases b <;> cases k.isNeg <;> simp

theorem View.store_long_unsat {r : Bool} {k : List Lit} (h : 2 ≤ k.length) : (V.store r k).unsat = V.unsat := by
  rw [View.store_long h]

/-- Another view of the same variables and unit clauses. -/
theorem SimB.view {V' : View} {st' : Bool → List Lit → Nat} (h : SimB a x p st V) (hc : SimC x st' V')
    (h1 : V'.names = V.names) (h2 : V'.user = V.user) (h3 : V'.used = V.used) (h4 : V'.mode = V.mode) (h5 : V'.nvars = V.nvars)
    (h6 : V'.unit = V.unit) (h7 : V'.asm = V.asm) : SimB a x p st' V' :=
  ⟨⟨h1.trans h.v.names, h2.trans h.v.user, fun u => by rw [h3]; exact h.v.used u, fun g => by rw [h4]; exact h.v.mode g,
    h5.trans h.v.nvars, h.v.ulen, h.v.slen⟩, fun g b => by rw [h6]; exact h.u g b, hc, by rw [h7]; exact h.as⟩

/-- Storing a clause of at least two literals. -/
theorem SimB.store (h : SimB a x p st V) (hv : VInv x) {ls : List Lit} (ho : Ordin x ls) (hl : 2 ≤ ls.length) (r : Bool) :
    SimB a x p (more st r ls) (V.store r (canon x ls)) := by
  have hc := h.c.store hv ho hl (red := r)
  rw [View.store_long (by rw [ho.length hv]; exact hl)] at hc ⊢
  exact h.view hc rfl rfl rfl rfl rfl rfl rfl

/-- Deleting a clause. -/
theorem SimB.del (h : SimB a x p st V) (hv : VInv x) {ls : List Lit} (ho : Ordin x ls) (pr : DeleteProof) :
    SimB a x p (less st (decide (pr = .redundant)) ls) (V.step (.deleteClause (ls.map (glit x)) pr)) :=
  h.view (h.c.del hv ho) rfl rfl rfl rfl rfl rfl rfl

/-- A unit clause. -/
theorem SimB.unit (h : SimB a x p st V) (hv : VInv x) (hl : x.pres l.var)
    (hq : ∀ m, x.pres m.var → (Known q m ↔ m = l ∨ Known p m)) (hn : ¬ Known p l.neg) (r : Bool) :
    SimB a x q st (V.store r [glit x l]) ∧ (V.store r [glit x l]).unsat = V.unsat := by
  have hln : x.pres l.neg.var := by simpa using hl
  rcases View.True.cases V (glit x l) with h1 | h1 | h1
  · rw [View.store_known h1]
    refine ⟨h.point (fun m hm => ?_) hv, rfl⟩
    rw [hq m hm]
    refine ⟨?_, .inr⟩
    rintro (rfl | h2)
    · exact (h.u.true_iff hv hm).1 h1
    · exact h2
  · rw [← glit_neg] at h1
    exact absurd ((h.u.true_iff hv hln).1 h1) hn
  · rw [View.store_new h1]
    refine ⟨⟨⟨h.v.names, h.v.user, h.v.used, h.v.mode, h.v.nvars, h.v.ulen, h.v.slen⟩, ?_, h.c.view rfl, h.as⟩, rfl⟩
    obtain ⟨g, hg⟩ := Option.isSome_iff_exists.1 hl
    have hgv := glit_var hg
    have hsg := (hv.gs g l.var).2 hg
    intro k b
    show Checker.upd V.unit _ _ k = _ ↔ _
    unfold Checker.upd
    rw [hgv]
    by_cases hk : k = g
    · subst hk
      rw [if_pos rfl, KnownG, hsg]
      simp only [glit_isNeg]
      rw [hq _ (by simpa using hl)]
      have hno : ∀ b, ¬ Known p (Lit.mk' l.var b) := by
        intro b hb
        have := (h.u k b).2 (by rw [KnownG, hsg]; exact hb)
        rw [hgv] at h1
        rw [h1] at this
        cases this
      constructor
      · intro hb
        obtain rfl := Option.some.inj hb
        exact .inl (Lit.mk'_var_neg l)
      · rintro (hb | hb)
        · have := congrArg Lit.isNeg hb
          simp only [Lit.isNeg_mk'] at this
          rw [← this]; simp
        · exact absurd hb (hno b)
    · rw [if_neg hk, h.u, KnownG, KnownG]
      cases hc : x.sfg.map k with
      | none => exact Iff.rfl
      | some v =>
        have hgk := (hv.gs k v).1 hc
        have hpv : x.pres v := by unfold Vars.pres; rw [hgk]; rfl
        show Known p _ ↔ Known q _
        rw [hq _ (by simpa using hpv)]
        refine ⟨.inr, ?_⟩
        rintro (hb | hb)
        · exfalso
          have : v = l.var := by rw [← hb]; simp
          rw [this, hg] at hgk
          exact hk (Option.some.inj hgk).symm
        · exact hb

/-- The same literals of level 0, all known. -/
theorem known_congr (hp : R0 p) (hq : R0 q) (h : ∀ l, q.Root l ↔ p.Root l) (l : Lit) : Known q l ↔ Known p l :=
  ⟨fun k => ⟨(h l).1 k.1, hp l ((h l).1 k.1)⟩, fun k => ⟨(h l).2 k.1, hq l ((h l).2 k.1)⟩⟩

theorem R0.known (h : R0 p) : Known p l ↔ p.Root l := ⟨And.left, fun k => ⟨k, h l k⟩⟩

theorem R0.resurrect (h : R0 p) (hr : ∀ m, (p.resurrect l).Root m ↔ p.Root m) : R0 (p.resurrect l) := by
  intro m hm
  by_cases hv : m.var = l.var
  · unfold Pt.resurrect
    split
    · rw [hv, Pt.enqueue_reason_self]
    · exact h m ((hr m).1 hm)
  · have h1 := h m ((hr m).1 hm)
    unfold Pt.resurrect
    split
    · unfold Pt.reason at h1 ⊢
      rw [Pt.enqueue_node_ne hv]
      exact h1
    · exact h1

theorem R0.resurrectAll {bin : Lit → List Lit} {w : Wl} {db : Db α} : ∀ (ls : List Lit) {p : Pt},
    Core F ids bin w db x p → Zero p → (∀ l ∈ ls, p.isFalse l = true ∧ x.pres l.var) → R0 p →
    R0 (ls.foldl (fun p l => p.resurrect l.neg) p)
  | [], _, _, _, _, h => h
  | l :: ls, p, hc, hz, hf, h => by
    obtain ⟨h1, h2⟩ := hf l (by simp)
    obtain ⟨a, b, c, d, e⟩ := hc.resurrect hz (l := l.neg) (by rw [Pt.isTrue_neg]; exact h1) (by simpa using h2)
    refine R0.resurrectAll ls a b (fun m hm => ?_) (h.resurrect fun m => ?_)
    · obtain ⟨h3, h4⟩ := hf m (by simp [hm])
      refine ⟨?_, h4⟩
      unfold Pt.isFalse at h3 ⊢
      rw [c]; exact h3
    · rw [Pt.root_level0 a.c.tr b.1, Pt.root_level0 hc.c.tr hz.1]
      unfold Pt.isTrue
      rw [c]

theorem scanLits_perm (p : Pt) : ∀ (ls : List Lit), ((St.scanLits p ls).1 ++ (St.scanLits p ls).2.1).Perm ls
  | [] => by simp [St.scanLits]
  | l :: ls => by
    have ih := scanLits_perm p ls
    rw [St.scanLits]
    split
    · simp
    · exact List.perm_middle.trans (ih.cons l)
    · exact ih.cons l

theorem more_less (r : Bool) (ls : List Lit) : less (more st r ls) r ls = st := by
  funext r' k
  unfold less more
  omega

theorem SimB.congr {st' : Bool → List Lit → Nat} (h : SimB a x p st V) (he : ∀ r k, Ordin x k → 2 ≤ k.length → st' r k = st r k) :
    SimB a x p st' V := ⟨h.v, h.u, h.c.congr he, h.as⟩

/-- Changing data that the checker does not see. -/
theorem SimB.dataLe (h : SimB a x p st V) {D : List VarData} (hD : DataLe x D)
    (ha : ∀ b, a = some b → ∀ l ∈ V.asm, ∀ (d d' : VarData), x.data[l.var]? = some d → D[l.var]? = some d' → d.assumed = true → d'.assumed = true) :
    SimB a { x with data := D } p st V := by
  refine h.data hD.length (fun g d d' h1 h2 => ?_) ha
  obtain ⟨d2, h3, h4, h5, h6, _⟩ := hD.some_ g d' h2
  rw [h1] at h3
  obtain rfl := Option.some.inj h3
  exact ⟨h4, h5, fun _ => h6⟩

theorem canon_nil : canon x [] = [] :=
  List.eq_nil_iff_forall_not_mem.2 fun k hk => by obtain ⟨l, hl, _⟩ := mem_canon.1 hk; cases hl

theorem canon_one (hv : VInv x) (hl : x.pres l.var) : canon x [l] = [glit x l] := by
  have ho : Ordin x [l] := ⟨by simpa using hl, by simp⟩
  exact List.perm_singleton.1 (ho.map_perm hv)

/-- Making a literal true at level 0. -/
theorem known_enqueue (hp : p.Ok) (hd : p.decisions = []) (hu : p.value l.var = none) (m : Lit) :
    Known (p.enqueue l .unit) m ↔ m = l ∨ Known p m := by
  have hok := hp.enqueue hu (r := .unit)
  have h0 : ∀ m, p.Root m → m.var ≠ l.var := fun m hm he => by
    have h1 := hm.1
    rw [Pt.isTrue_iff, he, hu] at h1
    cases h1
  constructor
  · rintro ⟨h1, h2⟩
    rcases Pt.root_enqueue hp hu h1 with h3 | ⟨rfl, _⟩
    · right
      refine ⟨h3, ?_⟩
      unfold Pt.reason at h2 ⊢
      rwa [Pt.enqueue_node_ne (h0 m h3)] at h2
    · exact .inl rfl
  · rintro (rfl | ⟨h1, h2⟩)
    · refine ⟨(Pt.root_level0 hok hd).2 ?_, Pt.enqueue_reason_self⟩
      rw [Pt.isTrue_iff, Pt.enqueue_value_self]
    · refine ⟨h1.enqueue hu, ?_⟩
      unfold Pt.reason at h2 ⊢
      rwa [Pt.enqueue_node_ne (h0 m h1)]

theorem R0.enqueue (h : R0 p) (hp : p.Ok) (hu : p.value l.var = none) : R0 (p.enqueue l .unit) := by
  intro m hm
  rcases Pt.root_enqueue hp hu hm with h3 | ⟨rfl, _⟩
  · have he : m.var ≠ l.var := fun he => by
      have h1 := h3.1
      rw [Pt.isTrue_iff, he, hu] at h1
      cases h1
    have := h m h3
    unfold Pt.reason at this ⊢
    rwa [Pt.enqueue_node_ne he]
  · exact Pt.enqueue_reason_self

/-- The end of `load_clause`. -/
theorem Tracked.storeClause {lits : List Lit} {w : Bool} (hv : VInv s.vars) (hr : R0 s.p) (hok : s.p.Ok) (hz : s.p.decisions = [])
    (hlt : ∀ c ∈ s.db.clauses, c < s.db.size)
    (hb : SimB a s.vars s.p (stored s.bins.byLit s.db) V) (huse : InUse s.vars s.bins.byLit s.db)
    (hun : V.unsat = false) (hsat : s.sat ≠ .unsat) (hasm : ∀ l ∈ s.asm.lits, s.vars.pres l.var ∧ glit s.vars l ∈ V.asm)
    (hlog : Seen s.log (V.store false (canon s.vars lits))) (hord : Ordin s.vars lits)
    (hw : w = true → ∀ l ∈ lits, s.p.isFalse l = true) (hw' : w = false → ∀ l, lits = [l] → s.p.value l.var = none)
    (ho : s.storeClause e w lits = .ok s') : Tracked a s' := by
  have bad : ∀ {V' : View}, Seen s.log { V with unsat := true } → Tracked a { s with sat := .unsat } := by
    intro _ hlog
    refine ⟨hv, hr, _, hlog, ⟨hb.view (V' := { V with unsat := true }) (hb.c.view rfl) rfl rfl rfl rfl rfl rfl rfl, huse, ⟨fun _ => rfl, fun _ => rfl⟩, hasm⟩⟩
  match lits, ho with
  | [], ho =>
    cases ho
    rw [canon_nil] at hlog
    exact bad (V' := V) hlog
  | [l], ho =>
    unfold St.storeClause at ho
    simp only at ho
    have hpl : s.vars.pres l.var := hord.pres l (by simp)
    rw [canon_one hv hpl] at hlog
    cases w with
    | true =>
      cases ho
      have hf := hw rfl l (by simp)
      rw [View.store_false] at hlog
      · exact bad (V' := V) hlog
      · rw [← glit_neg, hb.u.true_iff hv (by simpa using hpl), hr.known, Pt.root_level0 hok hz, Pt.isTrue_neg]
        exact hf
    | false =>
      cases ho
      have hu := hw' rfl l rfl
      have hn : ¬ Known s.p l.neg := by
        rintro ⟨⟨h1, _⟩, _⟩
        rw [Pt.isTrue_iff, Lit.var_neg, hu] at h1
        cases h1
      obtain ⟨k1, k2⟩ := hb.unit hv hpl (fun m _ => known_enqueue hok hz hu m) hn false
      have k3 : (V.store false [glit s.vars l]).asm = V.asm := (V.store_vars false _).2.2.2.2.2.1
      exact ⟨hv, hr.enqueue hok hu, _, hlog, ⟨k1, huse, (by rw [k2, hun]; exact ⟨(fun h => by cases h), fun h => absurd h hsat⟩), by rw [k3]; exact hasm⟩⟩
  | [l0, l1], ho =>
    cases ho
    have k3 : (V.store false (canon s.vars [l0, l1])).asm = V.asm := (V.store_vars false _).2.2.2.2.2.1
    have k4 : (V.store false (canon s.vars [l0, l1])).unsat = V.unsat := View.store_long_unsat (by rw [hord.length hv]; simp)
    have hne : l0.var ≠ l1.var := by have := hord.nodup; simpa using this
    refine ⟨hv, hr, _, hlog, ⟨(hb.store hv hord (by simp) false).congr fun r k _ _ => Bins.add_stored hne r k, huse.addBin hord,
      (by rw [k4, hun]; exact ⟨(fun h => by cases h), fun h => absurd h hsat⟩), by rw [k3]; exact hasm⟩⟩
  | l0 :: l1 :: l2 :: ls, ho =>
    unfold St.storeClause at ho
    simp only at ho
    split at ho
    · cases ho
    · rename_i db' w' c hadd
      cases ho
      have k3 : (V.store false (canon s.vars (l0 :: l1 :: l2 :: ls))).asm = V.asm := (V.store_vars false _).2.2.2.2.2.1
      have k4 : (V.store false (canon s.vars (l0 :: l1 :: l2 :: ls))).unsat = V.unsat :=
        View.store_long_unsat (by rw [hord.length hv]; simp)
      refine ⟨hv, hr, _, hlog, ⟨(hb.store hv hord (by simp) false).congr fun r k _ _ => ?_, huse.addClause hadd rfl hlt hord,
        (by rw [k4, hun]; exact ⟨(fun h => by cases h), fun h => absurd h hsat⟩), by rw [k3]; exact hasm⟩⟩
      · exact Db.addClause_stored hadd rfl hlt r k

theorem Tracked.loadLits (h : Tracked a s) (hb : Base F A ids s) (hs : s.sat ≠ .unsat) (hz : Zero s.p) {ms : List Lit}
    (hp : ∀ l ∈ ms, s.vars.pres l.var)
    (hm : ∀ l ∈ ms, ∀ (g : Nat) (d : VarData), s.vars.gfs.map l.var = some g → s.vars.data[g]? = some d → d.mode = .sample)
    (ho : s.loadLits e ms = .ok s') : Tracked a s' := by
  obtain ⟨ls, hls⟩ : ∃ ls, ls = dedupLits (sortLits ms) := ⟨_, rfl⟩
  have hmem : ∀ l, l ∈ ls ↔ l ∈ ms := fun l => by rw [hls, mem_dedupLits, mem_sortLits]
  have hss : SSorted ls := by rw [hls]; exact dedupLits_ssorted (sortLits_sorted ms)
  have hpl : ∀ l ∈ ls, s.vars.pres l.var := fun l hl => hp l ((hmem l).1 hl)
  obtain ⟨hcore, hp2⟩ := hb.run hs
  obtain ⟨V, k1, k2⟩ := h.view
  have hun : V.unsat = false := by
    cases hc : V.unsat with
    | false => rfl
    | true => exact absurd (k2.unsat.1 hc) hs
  unfold St.loadLits at ho
  simp only at ho
  rw [← hls, St.emit_glit (st := .addClause ls) hpl, ok_bind] at ho
  have hacc : V.Acc (gstep s.vars (.addClause ls)) := by
    refine .inr (.inr fun k hk => ?_)
    obtain ⟨l, hl, rfl⟩ := List.mem_map.1 hk
    obtain ⟨g, hg⟩ := Option.isSome_iff_exists.1 (hpl l hl)
    obtain ⟨d, hd, hdel⟩ := h.v.slive _ _ hg
    rw [glit_var hg, k2.b.v.mode, gmode_live hd hdel, hm l ((hmem l).1 hl) g d hg hd]
    rfl
  have htr : V.Tr (gstep s.vars (.addClause ls)) := by
    refine .inr (.inr fun k hk => ?_)
    obtain ⟨l, hl, rfl⟩ := List.mem_map.1 hk
    obtain ⟨g, hg⟩ := Option.isSome_iff_exists.1 (hpl l hl)
    obtain ⟨d, hd, hdel⟩ := h.v.slive _ _ hg
    rw [glit_var hg, k2.b.v.mode, gmode_live hd hdel, hm l ((hmem l).1 hl) g d hg hd, k2.b.v.nvars]
    exact ⟨(List.getElem?_eq_some_iff.1 hd).1, .inr rfl⟩
  have hlog := k1.snoc hacc ((show Short V.nvars (gstep s.vars (.addClause ls)) from
    k2.b.v.nodup h.v hss.nodup hpl).mono (view_nvars V _)) htr
  by_cases ht : tautScan none ls = true
  · rw [if_pos ht] at ho
    cases ho
    obtain ⟨l, hl1, hl2⟩ := (tautScan_none hss).1 ht
    have e1 : V.step (gstep s.vars (.addClause ls)) = V := by
      refine if_pos (.inr ((canonical_taut _).2 ⟨glit s.vars l, List.mem_map.2 ⟨l, hl1, rfl⟩, List.mem_map.2 ⟨l.neg, hl2, ?_⟩⟩))
      simp
    rw [e1] at hlog
    exact ⟨h.v, h.r, V, hlog, ⟨k2.b, k2.use, k2.unsat, k2.asm⟩⟩
  · rw [if_neg ht] at ho
    have hnt : ¬ ∃ l ∈ ls, l.neg ∈ ls := fun hx => ht ((tautScan_none hss).2 hx)
    have hord : Ordin s.vars ls := ⟨hpl, nodup_vars hss.nodup hnt⟩
    have e1 : V.step (gstep s.vars (.addClause ls)) = V.store false (canon s.vars ls) := by
      refine if_neg ?_
      rintro (hx | hx)
      · rw [hun] at hx; cases hx
      · obtain ⟨k, hk1, hk2⟩ := (canonical_taut _).1 hx
        exact hord.notaut h.v k hk1 hk2
    rw [e1] at hlog
    -- the part after the update of `isolated`
    have rest : ∀ (D : List VarData), DataLe s.vars D →
        (∀ (g : Nat) (d' : VarData), D[g]? = some d' → ∃ d : VarData, s.vars.data[g]? = some d ∧ d'.assumed = d.assumed) →
        (let t : St α := { s with vars := { s.vars with data := D }, log := s.log ++ [gstep s.vars (.addClause ls)] }
          let r := St.scanLits t.p ls
          let t := { t with p := r.2.1.foldl (fun p l => p.resurrect l.neg) t.p }
          let lits := r.1 ++ r.2.1
          if r.2.2 = true then
            if lits.length > 1 then t.emit (.deleteClause lits .satisfied) else pure t
          else t.storeClause e r.1.isEmpty lits) = Except.ok s' → Tracked a s' := by
      intro D hD hA ho
      simp only at ho
      obtain ⟨sc1, sc2, sc3, sc4⟩ := scanLits_spec s.p ls
      have sc5 := scanLits_perm s.p ls
      generalize St.scanLits s.p ls = r at sc1 sc2 sc3 sc4 sc5 ho
      obtain ⟨kept, fls, found⟩ := r
      simp only at sc1 sc2 sc3 sc4 sc5 ho
      obtain ⟨r1, r2, r3, r4, r5⟩ := Core.resurrectAll fls hcore hz (fun l hl => ⟨(sc2 l hl).2, hpl l (sc2 l hl).1⟩)
      have r6 := R0.resurrectAll fls hcore hz (fun l hl => ⟨(sc2 l hl).2, hpl l (sc2 l hl).1⟩) h.r
      generalize fls.foldl (fun p l => p.resurrect l.neg) s.p = p at r1 r2 r3 r4 r5 r6 ho
      have hroot : ∀ l, p.Root l ↔ s.p.Root l := by
        intro l
        rw [Pt.root_level0 r1.c.tr r2.1, Pt.root_level0 hcore.c.tr hz.1]
        unfold Pt.isTrue
        rw [r3]
      have hvD : VInv { s.vars with data := D } := h.v.dataLe hD
      have b0 : SimB a { s.vars with data := D } p (stored s.bins.byLit s.db) V := by
        refine SimB.point (p := s.p) ?_ (fun l _ => known_congr h.r r6 hroot l) hvD
        refine k2.b.dataLe hD fun _ _ l _ d d' h1 h2 h3 => ?_
        obtain ⟨d2, h4, h5⟩ := hA _ d' h2
        rw [h1] at h4
        obtain rfl := Option.some.inj h4
        rw [h5]; exact h3
      have huse : InUse { s.vars with data := D } s.bins.byLit s.db := k2.use.mono fun _ h => h
      have hord' : Ordin { s.vars with data := D } (kept ++ fls) := by
        have := hord.perm sc5.symm
        exact ⟨this.pres, this.nodup⟩
      have ecan : canon s.vars ls = canon { s.vars with data := D } (kept ++ fls) := canon_perm (x := s.vars) sc5.symm
      rw [ecan] at hlog
      by_cases hfound : found = true
      · rw [if_pos hfound] at ho
        obtain ⟨l, hl1, hl2⟩ := sc3 hfound
        have hkn : V.True (glit { s.vars with data := D } l) := by
          rw [b0.u.true_iff hvD (hpl l hl1), r6.known, hroot, Pt.root_level0 hcore.c.tr hz.1]
          exact hl2
        have hl3 : l ∈ kept ++ fls := sc5.mem_iff.2 hl1
        by_cases hlen : (kept ++ fls).length > 1
        · rw [if_pos hlen] at ho
          rw [St.emit_glit (s := { s with vars := { s.vars with data := D }, p := p, log := _ }) (st := .deleteClause (kept ++ fls) .satisfied) hord'.pres] at ho
          cases ho
          have b1 := b0.store hvD hord' hlen false
          have b2 := b1.del hvD hord' .satisfied
          rw [show decide (DeleteProof.satisfied = DeleteProof.redundant) = false from rfl, more_less] at b2
          have ecn : (copyCanonical ((kept ++ fls).map (glit { s.vars with data := D }))).1 =
            canon { s.vars with data := D } (kept ++ fls) := rfl
          have k3 := (V.store_vars false (canon { s.vars with data := D } (kept ++ fls)))
          refine ⟨hvD, r6, _, hlog.snoc (st := gstep { s.vars with data := D } (.deleteClause (kept ++ fls) .satisfied)) ?_
              (b2.v.ordin hvD hord'),
            ⟨b2, huse, ⟨fun hx => ?_, fun hx => absurd hx hs⟩, ?_⟩⟩
          · refine ⟨hord'.notaut hvD, ?_, ?_, ?_, ?_⟩
            · rw [ecn, hord'.length hvD]; exact hlen
            · rw [ecn]
              rw [show decide (DeleteProof.satisfied = DeleteProof.redundant) = false from rfl, b1.c.cnt false _ hord' hlen]
              unfold more
              simp
            · refine ⟨_, List.mem_map.2 ⟨l, hl3, rfl⟩, ?_⟩
              rw [View.store_long (by rw [hord'.length hvD]; exact hlen)]
              exact hkn
            · intro k hk
              obtain ⟨m, hm', rfl⟩ := List.mem_map.1 hk
              obtain ⟨g, hg⟩ := Option.isSome_iff_exists.1 (hord'.pres m hm')
              obtain ⟨d, hd, _⟩ := hvD.slive _ _ hg
              rw [glit_var hg, b1.v.nvars]
              exact (List.getElem?_eq_some_iff.1 hd).1
          · have hx' : (V.store false (canon { s.vars with data := D } (kept ++ fls))).unsat = true := hx
            rw [View.store_long_unsat (by rw [hord'.length hvD]; exact hlen), hun] at hx'
            cases hx'
          · show ∀ l ∈ s.asm.lits, _ ∧ _ ∈ (V.store false _).asm
            rw [k3.2.2.2.2.2.1]
            exact k2.asm
        · rw [if_neg hlen] at ho
          cases ho
          have hone : kept ++ fls = [l] := by
            match hx : kept ++ fls, hl3, hlen with
            | [m], h3, _ => simp at h3; rw [h3]
            | _ :: _ :: _, _, h4 => simp at h4
          rw [hone, canon_one hvD (hpl l hl1), View.store_known hkn] at hlog
          exact ⟨hvD, r6, V, hlog, ⟨b0, huse, k2.unsat, k2.asm⟩⟩
      · rw [if_neg hfound] at ho
        obtain ⟨j1, j2⟩ := sc4 (by simpa using hfound)
        refine Tracked.storeClause (V := V) (s := { s with vars := { s.vars with data := D }, p := p, log := _ }) hvD r6 r1.c.tr r2.1
          r1.dbi.lt b0 huse hun hs k2.asm hlog hord' ?_ ?_ ho
        · intro hw l hl
          have : kept = [] := by simpa using hw
          rw [this, List.nil_append] at hl
          show p.isFalse l = true
          unfold Pt.isFalse; rw [r3]; exact (sc2 l hl).2
        · intro hw l hl
          show p.value l.var = none
          rw [r3]
          refine j1 l ?_
          cases kept with
          | nil => simp at hw
          | cons m ks => simp at hl; simp [hl.1]
    by_cases hlen : ls.length > 1
    · rw [if_pos hlen] at ho
      obtain ⟨D, f1, f2⟩ := St.updLoop_ok (f := fun d => { d with isolated := false }) ls
        (s := { s with log := s.log ++ [gstep s.vars (.addClause ls)] }) h.v hpl (fun d => ⟨rfl, rfl⟩) (fun d => rfl)
      have hDle : DataLe s.vars D := DataLe.upd (f := fun d => { d with isolated := false })
        (P := fun k => ∃ l ∈ ls, s.vars.gfs.map l.var = some k) (fun d => ⟨rfl, rfl, rfl, fun h => by cases h⟩) f2
      rw [St.clearIsolated_eq, f1, ok_bind] at ho
      refine rest D hDle (fun g d' h1 => ?_) ho
      rw [f2 g] at h1
      split at h1
      · simp only at h1
        cases h2 : s.vars.data[g]? with
        | none => rw [h2] at h1; cases h1
        | some d =>
          rw [h2] at h1
          obtain rfl := Option.some.inj h1
          exact ⟨d, rfl, rfl⟩
      · exact ⟨d', h1, rfl⟩
    · rw [if_neg hlen] at ho
      exact rest s.vars.data (.refl _) (fun _ d h => ⟨d, h, rfl⟩) ho

end Varisat.Solver
