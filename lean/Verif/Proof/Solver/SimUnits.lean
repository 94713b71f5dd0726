import Verif.Proof.Solver.SimCalls
import Verif.Proof.Solver.Hints
/-!
# Clauses cited as hints, and `prove_units`
-/
namespace Varisat.Solver

open Api (Abs)
open Checker (View LitsOk SamplingMode hashOf)

variable {α : Type} [LinearOrder α]
variable {a : Option Abs} {x : Vars} {p q : Pt} {st : Bool → List Lit → Nat} {V : View} {l m : Lit} {s s' : St α} {e : Env α}
variable {F : List (List Lit)} {A : List Lit} {ids : Nat → Nat} {bin : Lit → List Lit} {db : Db α}

/-- The clauses of the solver are held by the checker. -/
theorem Cl.In.held (h : (cls bin db).In d) (hu : InUse x bin db) : Ordin x d ∧ 2 ≤ d.length ∧ ∃ r, 0 < stored bin db r d := by
  rcases h with ⟨l, m, hm, rfl⟩ | ⟨c, hc, rfl⟩
  · have hm' : m ∈ bin l.neg.neg := by rw [Lit.neg_neg]; exact hm
    exact ⟨hu.bins _ _ hm', by simp, false, stored_pair hm'⟩
  · have hi : c ∈ db.iter := Db.mem_iter.2 hc
    obtain ⟨h1, h2⟩ := hu.long c hi
    refine ⟨h1, ?_, _, stored_ref hi ?_⟩
    · show 2 ≤ (db.lits c).length; omega
    · show (db.lits c).length ≠ 2; omega

theorem SimB.cited (hb : SimB a x p (stored bin db) V) (hv : VInv x) (hu : InUse x bin db) {d : List Lit} (h : (cls bin db).In d) :
    hashOf 64 V.names (canon x d) = clauseHash d ∧ V.Named (canon x d) ∧ V.Has (canon x d) := by
  obtain ⟨h1, h2, r, h3⟩ := h.held hu
  refine ⟨?_, ?_, hb.c.has hv h1 h2 h3⟩
  · rw [hb.v.names]; exact h1.hash hv
  · intro k hk
    rw [hb.v.names]; exact h1.named hv k hk

/-- Chains of unit clauses in the variables of the proof. -/
theorem UnitChain.canon {known known' : Lit → Prop} : ∀ {hs : List (List Lit)}, UnitChain Lit.neg known hs →
    (∀ d ∈ hs, ∀ l ∈ d, x.pres l.var) → (∀ l, x.pres l.var → known l → known' (glit x l)) →
    UnitChain Lit.neg known' (hs.map (canon x)) := by
  intro hs
  induction hs generalizing known known' with
  | nil => intro h _ _; exact h
  | cons c cs ih =>
    intro h hp hk
    cases cs with
    | nil =>
      intro k hkm
      obtain ⟨l, hl, rfl⟩ := mem_canon.1 hkm
      rw [← glit_neg]
      exact hk _ (by simpa using hp c (by simp) l hl) (h l hl)
    | cons d cs =>
      obtain ⟨l, h1, h2, h3⟩ := h
      refine ⟨glit x l, mem_canon.2 ⟨l, h1, rfl⟩, ?_, ?_⟩
      · intro k hkm
        obtain ⟨m, hm, rfl⟩ := mem_canon.1 hkm
        rcases h2 m hm with rfl | h2
        · exact .inl rfl
        · right
          rw [← glit_neg]
          exact hk _ (by simpa using hp c (by simp) m hm) h2
      · refine ih h3 (fun d' hd' => hp d' (by simp [hd'])) ?_
        rintro m hm (rfl | h4)
        · exact .inl rfl
        · exact .inr (hk m hm h4)

/-- Hints as the checker sees them. -/
theorem SimB.hints (hb : SimB a x p (stored bin db) V) (hv : VInv x) (hu : InUse x bin db) {known known' : Lit → Prop}
    {hs : List (List Lit)} (hin : ∀ d ∈ hs, (cls bin db).In d) (h : UnitChain Lit.neg known hs)
    (hk : ∀ l, x.pres l.var → known l → known' (glit x l) ∨ V.True (glit x l)) :
    V.Hints known' (hs.map clauseHash) := by
  refine ⟨hs.map (canon x), ?_, ?_, ?_⟩
  · rw [List.map_map]
    exact List.map_congr_left fun d hd => ((hb.cited hv hu (hin d hd)).1).symm
  · intro d hd
    obtain ⟨d', hd', rfl⟩ := List.mem_map.1 hd
    exact (hb.cited hv hu (hin d' hd')).2
  · exact UnitChain.canon h (fun d hd => ((hin d hd).held hu).1.pres) hk

/-! ### `prove_units` -/

theorem known_updateRemoved (hd : p.decisions = []) {k : Nat} (hk : p.At k l) (ht : p.isTrue l = true) (m : Lit) :
    Known (p.updateRemovedUnit l.var) m ↔ m = l ∨ Known p m := by
  have hat : ∀ k m, (p.updateRemovedUnit l.var).At k m ↔ p.At k m := fun _ _ => Iff.rfl
  have hT : ∀ m, (p.updateRemovedUnit l.var).isTrue m = p.isTrue m := fun _ => rfl
  have hrl : p.Root l := ⟨ht, .inl ⟨k, hk, by rw [hd]; rfl⟩⟩
  have heq : ∀ m, p.isTrue m = true → m.var = l.var → m = l := by
    intro m hm hv
    rw [Pt.isTrue_iff] at hm ht
    rw [hv, ht] at hm
    refine Lit.ext_var_neg hv ?_
    have := Option.some.inj hm
    cases h1 : m.isNeg <;> cases h2 : l.isNeg <;> simp_all
  by_cases hv : m.var = l.var
  · constructor
    · rintro ⟨⟨h1, _⟩, _⟩
      exact .inl (heq m h1 hv)
    · intro h
      have hm : m = l := by
        rcases h with h | h
        · exact h
        · exact heq m h.1.1 hv
      subst hm
      refine ⟨⟨ht, .inl ⟨k, hk, by show lvl p.decisions k = 0; rw [hd]; rfl⟩⟩, ?_⟩
      unfold Pt.reason Pt.updateRemovedUnit
      simp only [put_same]
  · have hn : (p.updateRemovedUnit l.var).node m.var = p.node m.var := by
      unfold Pt.updateRemovedUnit
      simp only
      rw [put_ne _ _ hv]
    have hroot : (p.updateRemovedUnit l.var).Root m ↔ p.Root m := by
      unfold Pt.Root
      rw [hn, hT]
      rfl
    unfold Known Pt.reason
    rw [hroot, hn]
    constructor
    · exact .inr
    · rintro (rfl | h)
      · exact absurd rfl hv
      · exact h

/-- The assignments of a list of literals as unit clauses. -/
def updAll (p : Pt) (ls : List Lit) : Pt := ls.foldl (fun p lit => p.updateRemovedUnit lit.var) p

theorem known_updAll : ∀ (ls : List Lit) {p : Pt}, p.decisions = [] → (∀ l ∈ ls, p.isTrue l = true ∧ ∃ k, p.At k l) → ∀ m,
    Known (updAll p ls) m ↔ m ∈ ls ∨ Known p m
  | [], _, _, _, m => by simp [updAll]
  | l :: ls, p, hd, h, m => by
    obtain ⟨h1, k, h2⟩ := h l (by simp)
    have := known_updAll ls (p := p.updateRemovedUnit l.var) hd (fun n hn => h n (by simp [hn])) m
    unfold updAll at this ⊢
    rw [List.foldl_cons, this, known_updateRemoved hd h2 h1, List.mem_cons]
    constructor
    · rintro (h | h | h)
      · exact .inl (.inr h)
      · exact .inl (.inl h)
      · exact .inr h
    · rintro ((h | h) | h)
      · exact .inr (.inl h)
      · exact .inl h
      · exact .inr (.inr h)

/-- All literals of level 0 are known as unit clauses or on the trail. -/
def R1 (p : Pt) : Prop := ∀ l, p.Root l → p.reason l.var = .unit ∨ l ∈ p.trail

theorem R0.r1 (h : R0 p) : R1 p := fun l hl => .inl (h l hl)

/-- What the checker knows, with literals of level 0 not known as unit clauses yet. -/
structure Tracked1 (a : Option Abs) (s : St α) : Prop where
  v : VInv s.vars
  r : R1 s.p
  view : ∃ V, Seen s.log V ∧ Sim a s V

theorem Tracked.one (h : Tracked a s) : Tracked1 a s := ⟨h.v, h.r.r1, h.view⟩

theorem updAll_snoc (pre : List Lit) (l : Lit) : updAll p (pre ++ [l]) = (updAll p pre).updateRemovedUnit l.var := by
  unfold updAll
  rw [List.foldl_append]
  rfl

theorem At.mem {k : Nat} (h : p.At k l) : l ∈ p.trail := List.mem_of_getElem? h

/-- The unit clauses proved for literals on the trail. -/
def unitsOf (p : Pt) (lits : Nat → List Lit) (ls : List Lit) : List (Lit × Nat) :=
  ls.filterMap (fun lit =>
    let reason := p.reason lit.var
    if reason = .unit then none
    else some (lit, clauseHash (reason.lits lits) ^^^ litHash lit))

theorem unitsOf_cons (lits : Nat → List Lit) (l : Lit) (ls : List Lit) : unitsOf p lits (l :: ls) =
    if p.reason l.var = .unit then unitsOf p lits ls
    else (l, clauseHash ((p.reason l.var).lits lits) ^^^ litHash l) :: unitsOf p lits ls := by
  unfold unitsOf
  rw [List.filterMap_cons]
  by_cases h : p.reason l.var = .unit
  · simp only [h, if_true]
  · simp only [h, if_false]

theorem Reason.at_earlier {C : Cl} {pres : Nat → Prop} (hc : CInv pres C p) {k : Nat} (hk : p.At k l) :
    ∀ m ∈ (p.reason l.var).lits C.lits, ∃ j, j < k ∧ p.At j m.neg := by
  have h := hc.rs k l hk
  unfold ReasonAt at h
  intro m hm
  cases hre : p.reason l.var with
  | unit => rw [hre] at hm; simp [Reason.lits] at hm
  | binary n =>
    simp only [hre] at h hm
    simp only [Reason.lits, List.mem_singleton] at hm
    subst hm
    exact h.1
  | long c =>
    simp only [hre] at h hm
    obtain ⟨_, rest, h2, h3⟩ := h
    rw [Reason.lits, h2, List.tail_cons] at hm
    exact h3 m hm

theorem SimB.units (hv : VInv x) (hc : CInv x.pres (cls bin db) p) (hd : p.decisions = []) (hu : InUse x bin db) :
    ∀ (ls pre : List Lit) {V : View}, p.trail = pre ++ ls → SimB a x (updAll p pre) (stored bin db) V →
      V.AccUnits ((unitsOf p db.lits ls).map (fun u => (glit x u.1, u.2))) ∧
      SimB a x (updAll p p.trail) (stored bin db)
        (((unitsOf p db.lits ls).map (fun u => (glit x u.1, u.2))).foldl (fun V u => V.store false [u.1]) V) ∧
      (((unitsOf p db.lits ls).map (fun u => (glit x u.1, u.2))).foldl (fun V u => V.store false [u.1]) V).unsat = V.unsat ∧
      (((unitsOf p db.lits ls).map (fun u => (glit x u.1, u.2))).foldl (fun V u => V.store false [u.1]) V).asm = V.asm
  | [], pre, V, ht, hb => by
    rw [List.append_nil] at ht
    rw [ht]
    exact ⟨_root_.trivial, hb, rfl, rfl⟩
  | l :: ls, pre, V, ht, hb => by
    have ht' : p.trail = (pre ++ [l]) ++ ls := by rw [ht]; simp
    have hk : p.At pre.length l := by unfold Pt.At; rw [ht]; simp
    have htr : p.isTrue l = true := hc.tr.at_true hk
    have hpres : ∀ m ∈ p.trail, p.isTrue m = true ∧ ∃ k, p.At k m := by
      intro m hm
      obtain ⟨k, hk⟩ := List.mem_iff_getElem?.1 hm
      exact ⟨hc.tr.at_true hk, k, hk⟩
    have hpre : ∀ m ∈ pre, p.isTrue m = true ∧ ∃ k, p.At k m := fun m hm => hpres m (by rw [ht]; simp [hm])
    have hK := known_updAll pre hd hpre
    have hlx : x.pres l.var := hc.pres l (by rw [ht]; simp)
    obtain ⟨u1, _, u3, _, u5, _⟩ := updateRemoved_foldl pre p
    have hval : (updAll p pre).value = p.value := u1
    have hd' : (updAll p pre).decisions = [] := u5.trans hd
    have hk' : (updAll p pre).At pre.length l := by
      unfold Pt.At
      rw [show (updAll p pre).trail = p.trail from u3]
      exact hk
    have htr' : (updAll p pre).isTrue l = true := by unfold Pt.isTrue; rw [hval]; exact htr
    have hstep := known_updateRemoved hd' hk' htr'
    rw [unitsOf_cons]
    by_cases hr : p.reason l.var = .unit
    · rw [if_pos hr]
      refine SimB.units hv hc hd hu ls (pre ++ [l]) ht' ?_
      rw [updAll_snoc]
      refine hb.point (fun m _ => ?_) hv
      rw [hstep]
      refine ⟨?_, .inr⟩
      rintro (rfl | h)
      · exact (hK m).2 (.inr ⟨⟨htr, .inl ⟨_, hk, by rw [hd]; rfl⟩⟩, hr⟩)
      · exact h
    · rw [if_neg hr]
      obtain ⟨r1, r2, r3⟩ := reasonClause_spec hc hk hr
      have hn : ¬ Known (updAll p pre) l.neg := by
        rintro ⟨⟨h1, _⟩, _⟩
        rw [Pt.isTrue_neg, Pt.isFalse_iff] at h1
        rw [Pt.isTrue_iff] at htr'
        rw [htr'] at h1
        cases hh : l.isNeg <;> simp [hh] at h1
      obtain ⟨b1, b2⟩ := hb.unit hv hlx (q := updAll p (pre ++ [l])) (fun m _ => by rw [updAll_snoc]; exact hstep m) hn false
      obtain ⟨i1, i2, i3, i4⟩ := SimB.units hv hc hd hu ls (pre ++ [l]) ht' b1
      refine ⟨⟨?_, i1⟩, i2, i3.trans b2, i4.trans (V.store_vars _ _).2.2.2.2.2.1⟩
      obtain ⟨c1, c2, c3⟩ := hb.cited hv hu r1
      refine ⟨_, ?_, c2, c3, ?_⟩
      · rw [c1, r2]; rfl
      · intro k hkm
        obtain ⟨m, hm, rfl⟩ := mem_canon.1 hkm
        rcases (r3 m).1 hm with rfl | hm'
        · exact .inl rfl
        · right
          obtain ⟨j, hj, hat⟩ := Reason.at_earlier hc hk m hm'
          have hmn : m.neg ∈ pre := by
            have : p.trail[j]? = some m.neg := hat
            rw [ht, List.getElem?_append_left hj] at this
            exact List.mem_of_getElem? this
          rw [← glit_neg, hb.u.true_iff hv (hc.pres _ (by rw [ht]; simp [hmn])), hK]
          exact .inl hmn

/-- `prove_units` in level 0. -/
theorem SimV.units {V : View} (h : SimV s.vars V) (hv : VInv s.vars) (hc : CInv s.vars.pres (cls s.bins.byLit s.db) s.p) :
    Short V.nvars (gstep s.vars (.unitClauses s.unitProofs)) := by
  have h1 : (s.unitProofs.map (·.1)).Sublist s.p.trail := by
    unfold St.unitProofs
    generalize s.p.trail = t
    induction t with
    | nil => exact .slnil
    | cons l t ih =>
      rw [List.filterMap_cons]
      simp only
      split
      · exact ih.cons _
      · rename_i u hu
        split at hu
        · cases hu
        · obtain rfl := Option.some.inj hu
          exact ih.cons_cons _
  refine ⟨?_, ?_⟩
  · have h2 := (h.ordin hv (Ordin.sub ⟨hc.pres, hc.tr.nodup⟩ h1)).1
    simpa [List.map_map, Function.comp_def] using h2
  · intro u hu
    obtain ⟨y, hy, rfl⟩ := List.mem_map.1 hu
    unfold St.unitProofs at hy
    simp only [List.mem_filterMap] at hy
    obtain ⟨m, hm, hy⟩ := hy
    split at hy
    · cases hy
    · obtain rfl := Option.some.inj hy
      exact ⟨h.lit hv (hc.pres m hm), hash_lt _ _⟩

theorem Tracked1.proveUnits (h : Tracked1 a s) (hc : CInv s.vars.pres (cls s.bins.byLit s.db) s.p) (hd : s.p.decisions = [])
    {b : Bool} (ho : s.proveUnits = .ok (s', b)) : Tracked a s' := by
  obtain ⟨V, k1, k2⟩ := h.view
  unfold St.proveUnits at ho
  rw [if_pos (by unfold Pt.curLevel; rw [hd]; rfl)] at ho
  simp only at ho
  obtain ⟨h1, h2, h3, h4, h5, h6, h7, h8⟩ := updateRemoved_foldl s.p.trail s.p
  unfold Pt.clear at ho
  rw [if_pos (h5.trans hd)] at ho
  simp only at ho
  have hpres : ∀ m ∈ s.p.trail, s.p.isTrue m = true ∧ ∃ k, s.p.At k m := by
    intro m hm
    obtain ⟨k, hk⟩ := List.mem_iff_getElem?.1 hm
    exact ⟨hc.tr.at_true hk, k, hk⟩
  have hK := known_updAll s.p.trail hd hpres
  obtain ⟨i1, i2, i3, i4⟩ := SimB.units h.v hc hd k2.use s.p.trail [] rfl (show SimB a s.vars (updAll s.p []) _ V from k2.b)
  have hq : s.p.trail.foldl (fun p lit => p.updateRemovedUnit lit.var) s.p = updAll s.p s.p.trail := rfl
  rw [hq] at ho h1 h2 h3 h4 h5 h6 h7 h8
  obtain ⟨q, hqd⟩ : ∃ q : Pt, q = { updAll s.p s.p.trail with
      unitsRemoved := (updAll s.p s.p.trail).unitsRemoved + (updAll s.p s.p.trail).trail.length, trail := [], qhead := 0 } := ⟨_, rfl⟩
  have ho' : (if s.unitProofs.isEmpty = true then pure { s with p := q } else St.emit { s with p := q } (.unitClauses s.unitProofs)) =
      .ok s' := by
    rw [hqd]
    by_cases hun : s.unitProofs.isEmpty = true
    · rw [if_pos hun] at ho ⊢
      cases ho; rfl
    · rw [if_neg hun] at ho ⊢
      cases hR : St.emit { s with p := { updAll s.p s.p.trail with
        unitsRemoved := (updAll s.p s.p.trail).unitsRemoved + (updAll s.p s.p.trail).trail.length, trail := [], qhead := 0 } }
          (.unitClauses s.unitProofs) with
      | error e => rw [hR] at ho; cases ho
      | ok t => rw [hR] at ho; cases ho; rfl
  have hKq : ∀ m, Known q m ↔ Known (updAll s.p s.p.trail) m := by
    intro m
    unfold Known Pt.Root
    rw [hqd]
    constructor
    · rintro ⟨⟨a1, a2⟩, a3⟩
      refine ⟨⟨a1, .inr ?_⟩, a3⟩
      rcases a2 with ⟨k, a2, _⟩ | a2
      · simp [Pt.At] at a2
      · exact a2
    · rintro ⟨⟨a1, a2⟩, a3⟩
      refine ⟨⟨a1, .inr ?_⟩, a3⟩
      rcases a2 with ⟨k, a2, _⟩ | a2
      · have := At.mem a2
        rw [h3] at this
        exact h7 _ ⟨m, this, rfl⟩
      · exact a2
  have hR0 : R0 q := by
    intro m hm
    have hmt : s.p.isTrue m = true := by
      have := hm.1
      unfold Pt.isTrue at this ⊢
      rw [hqd] at this
      rw [← h1]
      exact this
    have hmr : s.p.Root m := (Pt.root_level0 hc.tr hd).2 hmt
    refine ((hKq m).2 ((hK m).2 ?_)).2
    rcases h.r m hmr with hx | hx
    · exact .inr ⟨hmr, hx⟩
    · exact .inl hx
  have hup : unitsOf s.p s.db.lits s.p.trail = s.unitProofs := rfl
  rw [hup] at i1 i2 i3 i4
  have hb : SimB a s.vars q (stored s.bins.byLit s.db)
      ((s.unitProofs.map (fun u => (glit s.vars u.1, u.2))).foldl (fun V u => V.store false [u.1]) V) :=
    i2.point (fun m _ => hKq m) h.v
  by_cases hun : s.unitProofs.isEmpty = true
  · rw [if_pos hun] at ho'
    rw [List.isEmpty_iff.1 hun] at hb
    cases ho'
    exact ⟨h.v, hR0, V, k1, ⟨hb, k2.use, k2.unsat, k2.asm⟩⟩
  · rw [if_neg hun, St.emit_glit (s := { s with p := q })] at ho'
    · cases ho'
      refine ⟨h.v, hR0, _, k1.snoc (st := gstep s.vars (.unitClauses s.unitProofs)) i1
        ((k2.b.v.units h.v hc).mono (view_nvars V _)), ⟨hb, k2.use, by rw [← k2.unsat]; exact Bool.eq_iff_iff.1 i3, ?_⟩⟩
      · intro l hl
        obtain ⟨j1, j2⟩ := k2.asm l hl
        refine ⟨j1, ?_⟩
        rw [← i4] at j2; exact j2
    · intro l hl
      simp only [stepLits, List.mem_map] at hl
      obtain ⟨y, hy, rfl⟩ := hl
      unfold St.unitProofs at hy
      simp only [List.mem_filterMap] at hy
      obtain ⟨m, hm, hy⟩ := hy
      split at hy
      · cases hy
      · obtain rfl := Option.some.inj hy
        exact hc.pres m hm

end Varisat.Solver
