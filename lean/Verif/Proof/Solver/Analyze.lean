import Verif.Proof.Solver.Propagate
import Verif.Proof.Solver.Queue
/-!
# Conflict analysis: the learned clause is implied and asserting
-/
namespace Varisat.Solver

variable {α : Type} [LinearOrder α] {pres : Nat → Prop} {C : Cl} {p : Pt}

/-- Models of the clauses and fixed literals. -/
structure Cl.Mod (C : Cl) (p : Pt) (a : Asg) : Prop where
  sat : C.Sat a
  root : ∀ l, p.Root l → l.holds a

/-- The decision queue changed only in its order. -/
structure VSame (v v' : Vsids α) : Prop where
  wf : Vsids.WF v'
  count : v'.count = v.count
  avail : ∀ x, v'.Avail x ↔ v.Avail x

theorem VSame.refl {v : Vsids α} (h : Vsids.WF v) : VSame v v := ⟨h, rfl, fun _ => Iff.rfl⟩
theorem VSame.trans {u v w : Vsids α} (h : VSame u v) (k : VSame v w) : VSame u w :=
  ⟨k.wf, k.count.trans h.count, fun x => (k.avail x).trans (h.avail x)⟩
theorem VSame.bump {v w : Vsids α} (h : VSame v w) (ar : Arith α) (x : Nat) :
    VSame v (w.bumpVar ar x) := by
  obtain ⟨h1, h2, h3⟩ := Vsids.bumpVar_wf ar h.wf x
  exact h.trans ⟨h1, h2, h3⟩

/-- The variable occurs in a clause. -/
def Cl.Used (C : Cl) (v : Nat) : Prop :=
  (∃ c, C.live c ∧ ∃ l ∈ C.lits c, l.var = v) ∨ ∃ l m, m ∈ C.bin l ∧ m.var = v

/-- Invariant of the state during the walk over the trail; the positions below `i` are to be visited. -/
structure AInv (C : Cl) (p : Pt) (v0 : Vsids α) (i : Nat) (a : An α) : Prop where
  lit : ∀ l ∈ a.clause, ∃ k, p.At k l.neg ∧ 0 < p.level l.var ∧ p.level l.var < p.curLevel ∧
    a.flags l.var = true
  nodup : (a.clause.map Lit.var).Nodup
  clean : a.toClean = a.clause.map Lit.var
  flag : ∀ v, a.flags v = true → v ∈ a.clause.map Lit.var ∨
    ∃ k l, k < i ∧ p.At k l ∧ l.var = v ∧ p.level v = p.curLevel
  count : a.count = (p.trail.take i).countP (fun l => a.flags l.var && decide (p.level l.var = p.curLevel))
  inv : ∀ c ∈ a.involved, C.live c
  vs : VSame v0 a.vsids
  used : ∀ v, a.flags v = true → C.Used v

/-- The literal needs no further treatment. -/
def An.Cov (p : Pt) (a : An α) (l : Lit) : Prop :=
  p.level l.var = 0 ∨ (p.level l.var = p.curLevel ∧ a.flags l.var = true) ∨ l ∈ a.clause

/-- The resolvent so far. -/
def An.Res (C : Cl) (p : Pt) (i : Nat) (a : An α) : Prop :=
  ∀ as, C.Mod p as → clauseSat as a.clause ∨
    ∃ k m, k < i ∧ p.At k m ∧ p.level m.var = p.curLevel ∧ a.flags m.var = true ∧ ¬ m.holds as

theorem countP_put {f : Nat → Bool} {ls : List Lit} (hn : (ls.map Lit.var).Nodup) {m : Lit} (hm : m ∈ ls)
    (hf : f m.var = false) (g : Lit → Bool) (hg : g m = true) :
    ls.countP (fun l => put f m.var true l.var && g l) = ls.countP (fun l => f l.var && g l) + 1 := by
  induction ls with
  | nil => simp at hm
  | cons x xs ih =>
    simp only [List.map_cons, List.nodup_cons] at hn
    by_cases hx : x = m
    · subst hx
      have : xs.countP (fun l => put f x.var true l.var && g l) = xs.countP (fun l => f l.var && g l) := by
        apply List.countP_congr
        intro l hl
        have : l.var ≠ x.var := fun he => hn.1 (he ▸ List.mem_map.2 ⟨l, hl, rfl⟩)
        rw [put_ne _ _ this]
      rw [List.countP_cons_of_pos (by simp [hg]), List.countP_cons_of_neg (by simp [hf]), this]
    · have hm' : m ∈ xs := by
        rcases List.mem_cons.1 hm with h | h
        · exact absurd h.symm hx
        · exact h
      have hxv : x.var ≠ m.var := fun he => hn.1 (he ▸ List.mem_map.2 ⟨m, hm', rfl⟩)
      have := ih hn.2 hm'
      rw [List.countP_cons, List.countP_cons, put_ne _ _ hxv, this]
      omega

theorem take_nodup (h : p.Ok) (i : Nat) : ((p.trail.take i).map Lit.var).Nodup :=
  ((List.take_sublist i p.trail).map _).nodup h.nodup

theorem mem_take_of_at {k i : Nat} {l : Lit} (h : p.At k l) (hk : k < i) : l ∈ p.trail.take i := by
  rw [List.mem_iff_getElem?]
  refine ⟨k, ?_⟩
  rw [List.getElem?_take, if_pos hk]
  exact h

theorem at_of_mem_take {i : Nat} {l : Lit} (h : l ∈ p.trail.take i) : ∃ k, k < i ∧ p.At k l := by
  obtain ⟨k, hk⟩ := List.mem_iff_getElem?.1 h
  rw [List.getElem?_take] at hk
  split at hk
  · exact ⟨k, by assumption, hk⟩
  · simp at hk

/-- Adding one false literal of an earlier position. -/
theorem addLiteral_ok {e : Env α} {v0 : Vsids α} {i : Nat} {a : An α} (hp : p.Ok)
    (h : AInv C p v0 i a) {lit : Lit} {j : Nat} (hj : j < i) (hat : p.At j lit.neg)
    (hus : C.Used lit.var) :
    AInv C p v0 i (An.addLiteral e p a lit) ∧ (An.addLiteral e p a lit).Cov p lit ∧
    (∀ l, a.Cov p l → (An.addLiteral e p a lit).Cov p l) ∧
    (∀ v, a.flags v = true → (An.addLiteral e p a lit).flags v = true) ∧
    (∀ l ∈ a.clause, l ∈ (An.addLiteral e p a lit).clause) ∧
    a.count ≤ (An.addLiteral e p a lit).count := by
  have hlev : p.level lit.var ≤ p.curLevel := by simpa using hp.level_le hat
  unfold An.addLiteral
  simp only
  split
  · rename_i hc
    obtain ⟨hc1, hc2⟩ := hc
    have hpm : ∀ v, a.flags v = true → put a.flags lit.var true v = true := by
      intro v hv; unfold put; split
      · rfl
      · exact hv
    have hpu : ∀ v, put a.flags lit.var true v = true → C.Used v := by
      intro v hv
      by_cases hvl : v = lit.var
      · rw [hvl]; exact hus
      · rw [put_ne _ _ hvl] at hv; exact h.used v hv
    split
    · rename_i hcur
      refine ⟨⟨?_, h.nodup, h.clean, ?_, ?_, h.inv, h.vs.bump _ _, hpu⟩, ?_, ?_, hpm, fun l hl => hl, by simp⟩
      · intro l hl
        obtain ⟨k, h1, h2, h3, h4⟩ := h.lit l hl
        exact ⟨k, h1, h2, h3, hpm _ h4⟩
      · intro v hv
        simp only at hv
        by_cases hvl : v = lit.var
        · right; exact ⟨j, lit.neg, hj, hat, by simp [hvl], by rw [hvl]; exact hcur⟩
        · rw [put_ne _ _ hvl] at hv; exact h.flag v hv
      · have := countP_put (f := a.flags) (take_nodup hp i) (m := lit.neg) (mem_take_of_at hat hj)
          (by simpa using hc2) (fun l => decide (p.level l.var = p.curLevel)) (by simpa using hcur)
        rw [Lit.var_neg] at this
        show a.count + 1 = _
        rw [h.count]
        exact this.symm
      · exact .inr (.inl ⟨hcur, by simp⟩)
      · rintro l (h1 | ⟨h1, h2⟩ | h1)
        · exact .inl h1
        · exact .inr (.inl ⟨h1, hpm _ h2⟩)
        · exact .inr (.inr h1)
    · rename_i hcur
      have hnm : lit.var ∉ a.clause.map Lit.var := by
        intro hm
        obtain ⟨l, hl, hv⟩ := List.mem_map.1 hm
        obtain ⟨_, _, _, _, h4⟩ := h.lit l hl
        rw [hv, hc2] at h4; simp at h4
      refine ⟨⟨?_, ?_, ?_, ?_, ?_, h.inv, h.vs.bump _ _, hpu⟩, ?_, ?_, hpm, fun l hl => by simp [hl], Nat.le_refl _⟩
      · intro l hl
        simp only [List.mem_append, List.mem_singleton] at hl
        rcases hl with hl | rfl
        · obtain ⟨k, h1, h2, h3, h4⟩ := h.lit l hl
          exact ⟨k, h1, h2, h3, hpm _ h4⟩
        · exact ⟨j, hat, hc1, by omega, by simp⟩
      · simp only [List.map_append, List.map_cons, List.map_nil]
        rw [List.nodup_append]
        refine ⟨h.nodup, by simp, ?_⟩
        intro x hx y hy hxy
        simp at hy
        subst hy; subst hxy
        exact hnm hx
      · simp [h.clean]
      · intro v hv
        simp only at hv
        by_cases hvl : v = lit.var
        · left; simp [hvl]
        · rw [put_ne _ _ hvl] at hv
          rcases h.flag v hv with h1 | h1
          · left; simp only [List.map_append, List.mem_append]; exact .inl h1
          · exact .inr h1
      · simp only
        rw [h.count]
        apply List.countP_congr
        intro l hl
        by_cases hv : l.var = lit.var
        · rw [hv]; simp [hcur]
        · rw [put_ne _ _ hv]
      · exact .inr (.inr (by simp))
      · rintro l (h1 | ⟨h1, h2⟩ | h1)
        · exact .inl h1
        · exact .inr (.inl ⟨h1, hpm _ h2⟩)
        · exact .inr (.inr (by simp [h1]))
  · rename_i hc
    refine ⟨h, ?_, fun _ h => h, fun _ h => h, fun _ h => h, Nat.le_refl _⟩
    by_cases h0 : p.level lit.var = 0
    · exact .inl h0
    · have hfl : a.flags lit.var = true := by
        by_contra hne
        exact hc ⟨by omega, by simpa using hne⟩
      rcases h.flag _ hfl with h1 | ⟨k, l, _, _, _, h4⟩
      · obtain ⟨m, hm, hv⟩ := List.mem_map.1 h1
        obtain ⟨k, h2, _⟩ := h.lit m hm
        have := (hp.uniq h2 hat (by simp [hv])).2
        rw [Lit.neg_inj_iff] at this
        exact .inr (.inr (this ▸ hm))
      · exact .inr (.inl ⟨h4, hfl⟩)

theorem addLiterals_ok {e : Env α} {v0 : Vsids α} {i : Nat} (hp : p.Ok) :
    ∀ (ls : List Lit) (a : An α), AInv C p v0 i a → (∀ l ∈ ls, ∃ j, j < i ∧ p.At j l.neg) →
    (∀ l ∈ ls, C.Used l.var) →
    AInv C p v0 i (ls.foldl (An.addLiteral e p) a) ∧
    (∀ l ∈ ls, (ls.foldl (An.addLiteral e p) a).Cov p l) ∧
    (∀ l, a.Cov p l → (ls.foldl (An.addLiteral e p) a).Cov p l) ∧
    (∀ v, a.flags v = true → (ls.foldl (An.addLiteral e p) a).flags v = true) ∧
    (∀ l ∈ a.clause, l ∈ (ls.foldl (An.addLiteral e p) a).clause) ∧
    a.count ≤ (ls.foldl (An.addLiteral e p) a).count
  | [], a, h, _, _ => ⟨h, by simp, fun _ h => h, fun _ h => h, fun _ h => h, Nat.le_refl _⟩
  | l :: ls, a, h, hls, hus => by
    obtain ⟨j, hj, hat⟩ := hls l (by simp)
    obtain ⟨h1, h2, h3, h4, h5, h6⟩ := addLiteral_ok (e := e) hp h hj hat (hus l (by simp))
    obtain ⟨k1, k2, k3, k4, k5, k6⟩ := addLiterals_ok hp ls _ h1 (fun m hm => hls m (by simp [hm]))
      (fun m hm => hus m (by simp [hm]))
    rw [List.foldl_cons]
    refine ⟨k1, ?_, fun m hm => k3 m (h3 m hm), fun v hv => k4 v (h4 v hv), fun m hm => k5 m (h5 m hm),
      Nat.le_trans h6 k6⟩
    intro m hm
    rcases List.mem_cons.1 hm with rfl | hm
    · exact k3 _ h2
    · exact k2 m hm

/-- What the walk over the trail gives: the clause before minimisation. -/
structure Walked (C : Cl) (p : Pt) (v0 : Vsids α) (a : An α) (u : Lit) (rest : List Lit) : Prop where
  eq : a.clause = u :: rest
  uip : ∃ k, p.At k u.neg ∧ p.level u.var = p.curLevel
  lit : ∀ l ∈ rest, ∃ k, p.At k l.neg ∧ 0 < p.level l.var ∧ p.level l.var < p.curLevel
  nodup : (rest.map Lit.var).Nodup
  flags : ∀ v, a.flags v = true ↔ v ∈ rest.map Lit.var
  clean : ∀ v, v ∈ a.toClean ↔ v ∈ rest.map Lit.var
  implied : ∀ as, C.Mod p as → clauseSat as a.clause
  inv : ∀ c ∈ a.involved, C.live c
  vs : VSame v0 a.vsids
  used : ∀ l ∈ a.clause, C.Used l.var

theorem pushFirst_spec (c : List Lit) (l : Lit) :
    ∃ rest, An.pushFirst c l = l :: rest ∧ rest.Perm c := by
  cases c with
  | nil => exact ⟨[], rfl, .refl _⟩
  | cons h t => exact ⟨t ++ [h], rfl, by simpa using (List.perm_append_comm : (t ++ [h]).Perm ([h] ++ t))⟩

/-- A clause semantically equal to the reason of a literal. -/
theorem reason_sat (hc : CInv pres C p) {as : Asg} (hs : C.Sat as) {k : Nat} {l : Lit} (hk : p.At k l)
    (hr : p.reason l.var ≠ .unit) : (∀ m ∈ (p.reason l.var).lits C.lits, ∃ j, j < k ∧ p.At j m.neg) ∧
      (l.holds as ∨ clauseSat as ((p.reason l.var).lits C.lits)) ∧
      ∀ c ∈ (p.reason l.var).cref, C.live c := by
  have h := hc.rs k l hk
  unfold ReasonAt at h
  cases hre : p.reason l.var with
  | unit => exact absurd hre hr
  | binary m =>
    simp only [hre] at h
    refine ⟨?_, ?_, by simp [Reason.cref]⟩
    · simp only [Reason.lits, List.mem_singleton]; rintro x rfl; exact h.1
    · rw [Reason.lits, clauseSat_singleton]
      by_cases hm : m.holds as
      · exact .inr hm
      · exact .inl (hs.bin _ _ h.2 (by rw [Lit.holds_neg]; exact hm))
  | long c =>
    simp only [hre] at h
    obtain ⟨hl, rest, hcl, hrest⟩ := h
    simp only [Reason.lits, hcl, List.tail_cons]
    refine ⟨hrest, ?_, ?_⟩
    · have := hs.long c hl
      rw [hcl, clauseSat_cons] at this
      exact this
    · simp [Reason.cref, hl]

theorem reason_used (hc : CInv pres C p) {k : Nat} {l : Lit} (hk : p.At k l)
    (hr : p.reason l.var ≠ .unit) : ∀ m ∈ (p.reason l.var).lits C.lits, C.Used m.var := by
  have h := hc.rs k l hk
  unfold ReasonAt at h
  cases hre : p.reason l.var with
  | unit => exact absurd hre hr
  | binary m =>
    simp only [hre] at h
    simp only [Reason.lits, List.mem_singleton]
    rintro x rfl
    refine .inr ⟨l.neg, x, ?_, rfl⟩
    have := hc.binSym _ _ h.2
    simpa using this
  | long c =>
    simp only [hre] at h
    obtain ⟨hl, rest, hcl, _⟩ := h
    simp only [Reason.lits, hcl, List.tail_cons]
    intro m hm
    exact .inl ⟨c, hl, m, by rw [hcl]; simp [hm], rfl⟩

/-- The hint for the reason of a literal. -/
def hint (p : Pt) (lits : Nat → List Lit) (m : Lit) : Nat :=
  clauseHash ((p.reason m.var).lits lits) ^^^ litHash m

/-- The literal is false and treated: its negation was resolved away, or it needs no treatment. -/
def Treated (p : Pt) (a : An α) (ws : List Lit) (l : Lit) : Prop :=
  (∃ j, p.At j l.neg) ∧ (l.neg ∈ ws ∨ a.Cov p l)

/-- The hashes collected during the walk are that of the conflict `cl` and those of the reasons of `ws`;
the positions below `i` are to be visited. -/
structure WalkInv (C : Cl) (p : Pt) (cl : List Lit) (i : Nat) (a : An α) (ws : List Lit) : Prop where
  hashes : a.hashes = clauseHash cl :: ws.map (hint p C.lits)
  unord : a.unordered = []
  pos : ∀ m ∈ ws, ∃ k, i ≤ k ∧ p.At k m ∧ p.level m.var = p.curLevel ∧ p.reason m.var ≠ .unit
  desc : ws.Pairwise (fun m n => ∀ j k, p.At j m → p.At k n → k < j)
  cl : ∀ l ∈ cl, Treated p a ws l
  res : ∀ m ∈ ws, ∀ l ∈ (p.reason m.var).lits C.lits, Treated p a ws l

/-- The outcome of the walk: as `WalkInv`, with all literals treated. -/
structure WEnd (C : Cl) (p : Pt) (cl : List Lit) (a : An α) (ws : List Lit) : Prop where
  hashes : a.hashes = clauseHash cl :: ws.map (hint p C.lits)
  unord : a.unordered = []
  pos : ∀ m ∈ ws, ∃ k, p.At k m ∧ p.level m.var = p.curLevel ∧ p.reason m.var ≠ .unit
  desc : ws.Pairwise (fun m n => ∀ j k, p.At j m → p.At k n → k < j)
  cl : ∀ l ∈ cl, l.neg ∈ ws ∨ p.level l.var = 0 ∨ l ∈ a.clause
  res : ∀ m ∈ ws, ∀ l ∈ (p.reason m.var).lits C.lits, l.neg ∈ ws ∨ p.level l.var = 0 ∨ l ∈ a.clause

theorem addLiteral_hashes (e : Env α) (p : Pt) (a : An α) (l : Lit) :
    (An.addLiteral e p a l).hashes = a.hashes ∧ (An.addLiteral e p a l).unordered = a.unordered := by
  unfold An.addLiteral
  simp only
  split
  · split <;> exact ⟨rfl, rfl⟩
  · exact ⟨rfl, rfl⟩

theorem addLiterals_hashes (e : Env α) (p : Pt) : ∀ (ls : List Lit) (a : An α),
    (ls.foldl (An.addLiteral e p) a).hashes = a.hashes ∧
    (ls.foldl (An.addLiteral e p) a).unordered = a.unordered
  | [], _ => ⟨rfl, rfl⟩
  | l :: ls, a => by
    rw [List.foldl_cons]
    have h1 := addLiteral_hashes e p a l
    have h2 := addLiterals_hashes e p ls (An.addLiteral e p a l)
    exact ⟨h2.1.trans h1.1, h2.2.trans h1.2⟩

theorem trailLoop_full {e : Env α} {v0 : Vsids α} (hc : CInv pres C p) (hcur : 0 < p.curLevel) {cl : List Lit} :
    ∀ (i : Nat) (a : An α) (ws : List Lit), i ≤ p.trail.length → AInv C p v0 i a → a.Res C p i → 1 ≤ a.count →
    WalkInv C p cl i a ws →
    ∃ a' u rest, An.trailLoop e p C.lits (p.trail.take i).reverse a = some a' ∧ Walked C p v0 a' u rest ∧
      ∃ ws', WEnd C p cl a' ws'
  | 0, a, ws, _, h, _, hct, _ => by
    have := h.count
    simp at this; omega
  | i + 1, a, ws, hi, h, hres, hct, hw => by
    have hlt : i < p.trail.length := hi
    have hat : p.At i p.trail[i] := List.getElem?_eq_getElem hlt
    generalize hlit : p.trail[i] = lit at hat
    have htake : p.trail.take (i + 1) = p.trail.take i ++ [lit] := by
      rw [List.take_succ_eq_append_getElem hlt, hlit]
    -- some flagged literal of the current level is at or below position i
    have hex : ∃ m ∈ p.trail.take (i + 1), (a.flags m.var && decide (p.level m.var = p.curLevel)) = true := by
      have : 0 < (p.trail.take (i + 1)).countP
        (fun l => a.flags l.var && decide (p.level l.var = p.curLevel)) := by rw [← h.count]; omega
      exact List.countP_pos_iff.1 this
    have hlevlit : p.level lit.var = p.curLevel := by
      obtain ⟨m, hm, hm2⟩ := hex
      obtain ⟨k, hk, hka⟩ := at_of_mem_take hm
      simp at hm2
      have := hc.tr.level_mono hka hat (by omega)
      have := hc.tr.level_le hat
      omega
    rw [htake, List.reverse_append, List.reverse_singleton, List.singleton_append, An.trailLoop]
    split
    · rename_i hfl
      simp only
      have hcount : a.count = (p.trail.take i).countP
          (fun l => a.flags l.var && decide (p.level l.var = p.curLevel)) + 1 := by
        rw [h.count, htake, List.countP_append]
        simp [hfl, hlevlit]
      have hnotin : ∀ l ∈ p.trail.take i, l.var ≠ lit.var := by
        intro l hl hv
        obtain ⟨k, hk, hka⟩ := at_of_mem_take hl
        have := (hc.tr.uniq hka hat hv).1
        omega
      have hcount' : (p.trail.take i).countP
          (fun l => put a.flags lit.var false l.var && decide (p.level l.var = p.curLevel)) =
          (p.trail.take i).countP (fun l => a.flags l.var && decide (p.level l.var = p.curLevel)) := by
        apply List.countP_congr
        intro l hl
        rw [put_ne _ _ (hnotin l hl)]
      have hncl : lit.var ∉ a.clause.map Lit.var := by
        intro hm
        obtain ⟨l, hl, hv⟩ := List.mem_map.1 hm
        obtain ⟨_, _, _, h3, _⟩ := h.lit l hl
        rw [hv, hlevlit] at h3; omega
      have hfne : ∀ l ∈ a.clause, put a.flags lit.var false l.var = true := by
        intro l hl
        obtain ⟨_, _, _, _, h4⟩ := h.lit l hl
        rw [put_ne]
        · exact h4
        · intro he; exact hncl (he ▸ List.mem_map.2 ⟨l, hl, rfl⟩)
      rw [if_neg (by omega)]
      split
      · rename_i h1
        obtain ⟨rest, hr1, hr2⟩ := pushFirst_spec a.clause lit.neg
        have hz : (p.trail.take i).countP
          (fun l => a.flags l.var && decide (p.level l.var = p.curLevel)) = 0 := by omega
        rw [List.countP_eq_zero] at hz
        have hend : ∀ l, Treated p a ws l → l.neg ∈ ws ∨ p.level l.var = 0 ∨ l ∈ lit.neg :: rest := by
          rintro l ⟨⟨j, hj⟩, h2 | h2 | ⟨h2, h3⟩ | h2⟩
          · exact .inl h2
          · exact .inr (.inl h2)
          · right; right
            rcases h.flag _ h3 with h4 | ⟨k, m, hk, hka, hmv, _⟩
            · obtain ⟨m, hm, hmv⟩ := List.mem_map.1 h4
              obtain ⟨_, _, _, h5, _⟩ := h.lit m hm
              rw [hmv, h2] at h5; omega
            · obtain ⟨rfl, rfl⟩ := hc.tr.uniq hka hj (by simpa using hmv)
              by_cases hki : k = i
              · subst hki
                have := hka.symm.trans hat
                simp only [Option.some.injEq] at this
                rw [← this]; simp
              · exfalso
                have := hz _ (mem_take_of_at hka (by omega))
                simp [h3, h2] at this
          · right; right
            exact List.mem_cons_of_mem _ (hr2.mem_iff.2 h2)
        refine ⟨_, lit.neg, rest, rfl, ⟨hr1, ⟨i, by simpa using hat, by simpa using hlevlit⟩, ?_, ?_, ?_, ?_, ?_,
          h.inv, h.vs, ?_⟩, ws, hw.hashes, hw.unord,
          fun m hm => by obtain ⟨k, _, h2⟩ := hw.pos m hm; exact ⟨k, h2⟩, hw.desc,
          fun l hl => by simp only [hr1]; exact hend l (hw.cl l hl),
          fun m hm l hl => by simp only [hr1]; exact hend l (hw.res m hm l hl)⟩
        rotate_right
        · intro l hl
          simp only [hr1, List.mem_cons] at hl
          rcases hl with rfl | hl
          · simpa using h.used _ hfl
          · obtain ⟨_, _, _, _, h4⟩ := h.lit l (hr2.mem_iff.1 hl)
            exact h.used _ h4
        · intro l hl
          obtain ⟨k, h2, h3, h4, _⟩ := h.lit l (hr2.mem_iff.1 hl)
          exact ⟨k, h2, h3, h4⟩
        · rw [(hr2.map _).nodup_iff]; exact h.nodup
        · intro v
          simp only
          rw [(hr2.map Lit.var).mem_iff]
          constructor
          · intro hv
            by_cases hvl : v = lit.var
            · rw [hvl, put_same] at hv; simp at hv
            · rw [put_ne _ _ hvl] at hv
              rcases h.flag v hv with h2 | ⟨k, l, hk, hka, hlv, hlev⟩
              · exact h2
              · exfalso
                have hki : k ≠ i := by
                  rintro rfl
                  have := hka.symm.trans hat
                  simp at this
                  rw [this] at hlv; exact hvl hlv.symm
                have := hz l (mem_take_of_at hka (by omega))
                rw [hlv] at this
                simp [hv, hlev] at this
          · intro hv
            obtain ⟨l, hl, rfl⟩ := List.mem_map.1 hv
            exact hfne l hl
        · intro v
          simp only
          rw [(hr2.map Lit.var).mem_iff, h.clean]
        · intro as has
          simp only [hr1]
          rw [clauseSat_cons]
          rcases hres as has with ⟨l, hl, hls⟩ | ⟨k, m, hk, hka, hml, hmf, hmn⟩
          · exact .inr ⟨l, hr2.mem_iff.2 hl, hls⟩
          · by_cases hki : k = i
            · subst hki
              have := hka.symm.trans hat
              simp at this
              subst this
              left; rw [Lit.holds_neg]; exact hmn
            · exfalso
              have := hz m (mem_take_of_at hka (by omega))
              simp [hmf, hml] at this
      · rename_i h1
        -- the literal has a reason
        have hru : p.reason lit.var ≠ .unit := by
          intro hu
          have hra := hc.rs i lit hat
          unfold ReasonAt at hra
          simp only [hu] at hra
          rcases hra with hra | hra
          · have : 0 < (p.trail.take i).countP
              (fun l => a.flags l.var && decide (p.level l.var = p.curLevel)) := by omega
            obtain ⟨m, hm, hm2⟩ := List.countP_pos_iff.1 this
            obtain ⟨k, hk, hka⟩ := at_of_mem_take hm
            simp at hm2
            have hml := hm2.2
            rw [hc.tr.level k m hka] at hml
            -- all decisions are at or before k
            have hall : ∀ d ∈ p.decisions, d ≤ k := by
              have : p.decisions.countP (fun d => decide (d ≤ k)) = p.decisions.length := hml
              rw [List.countP_eq_length] at this
              simpa using this
            have := hall i hra
            omega
          · rw [hc.tr.level i lit hat] at hlevlit; omega
        simp only [if_neg hru]
        have hA : AInv C p v0 i { a with
            flags := put a.flags lit.var false
            count := a.count - 1
            hashes := a.hashes ++ [clauseHash ((p.reason lit.var).lits C.lits) ^^^ litHash lit] } := by
          refine ⟨?_, h.nodup, h.clean, ?_, ?_, h.inv, h.vs, ?_⟩
          rotate_right
          · intro v hv
            simp only at hv
            by_cases hvl : v = lit.var
            · rw [hvl, put_same] at hv; cases hv
            · rw [put_ne _ _ hvl] at hv; exact h.used v hv
          · intro l hl
            obtain ⟨k, h2, h3, h4, _⟩ := h.lit l hl
            exact ⟨k, h2, h3, h4, hfne l hl⟩
          · intro v hv
            simp only at hv
            by_cases hvl : v = lit.var
            · rw [hvl, put_same] at hv; simp at hv
            · rw [put_ne _ _ hvl] at hv
              rcases h.flag v hv with h2 | ⟨k, l, hk, hka, hlv, hlev⟩
              · exact .inl h2
              · right
                refine ⟨k, l, ?_, hka, hlv, hlev⟩
                have hki : k ≠ i := by
                  rintro rfl
                  have := hka.symm.trans hat
                  simp at this
                  rw [this] at hlv; exact hvl hlv.symm
                omega
          · simp only [hcount']; omega
        have hrl : ∀ m ∈ (p.reason lit.var).lits C.lits, ∃ j, j < i ∧ p.At j m.neg := by
          have h := hc.rs i lit hat
          unfold ReasonAt at h
          cases hre : p.reason lit.var with
          | unit => exact absurd hre hru
          | binary m =>
            simp only [hre] at h
            simp only [Reason.lits, List.mem_singleton]; rintro x rfl; exact h.1
          | long c =>
            simp only [hre] at h
            obtain ⟨_, rest, hcl, hrest⟩ := h
            simp only [Reason.lits, hcl, List.tail_cons]
            exact hrest
        have hcr : ∀ c ∈ (p.reason lit.var).cref, C.live c := by
          have h := hc.rs i lit hat
          unfold ReasonAt at h
          cases hre : p.reason lit.var with
          | unit => simp [Reason.cref]
          | binary m => simp [Reason.cref]
          | long c =>
            simp only [hre] at h
            simp [Reason.cref, h.1]
        obtain ⟨k1, k2, k3, k4, k5, k6⟩ := addLiterals_ok (e := e) hc.tr _ _ hA hrl (reason_used hc hat hru)
        generalize hfold : List.foldl (An.addLiteral e p) _ ((p.reason lit.var).lits C.lits) = b at *
        have hB : AInv C p v0 i { b with involved := b.involved ++ (p.reason lit.var).cref } := by
          refine ⟨k1.lit, k1.nodup, k1.clean, k1.flag, k1.count, ?_, k1.vs, k1.used⟩
          intro c hcm
          simp only [List.mem_append] at hcm
          rcases hcm with hcm | hcm
          · exact k1.inv c hcm
          · exact hcr c hcm
        have hres' : An.Res C p i { b with involved := b.involved ++ (p.reason lit.var).cref } := by
          intro as has
          have cov : ∀ m j, j < i → p.At j m.neg → b.Cov p m → m.holds as →
              clauseSat as b.clause ∨ ∃ k m, k < i ∧ p.At k m ∧ p.level m.var = p.curLevel ∧
                b.flags m.var = true ∧ ¬ m.holds as := by
            intro m j hj hja hcov hm
            rcases hcov with h2 | ⟨h2, h3⟩ | h2
            · exfalso
              have : m.neg.holds as := by
                apply has.root
                refine ⟨hc.tr.at_true hja, .inl ⟨j, hja, ?_⟩⟩
                rw [← hc.tr.level j _ hja]; simpa using h2
              rw [Lit.holds_neg] at this
              exact this hm
            · right
              exact ⟨j, m.neg, hj, hja, by simpa using h2, by simpa using h3, by rw [Lit.holds_neg]; simpa using hm⟩
            · exact .inl ⟨m, h2, hm⟩
          rcases hres as has with ⟨l, hl, hls⟩ | ⟨k, m, hk, hka, hml, hmf, hmn⟩
          · exact .inl ⟨l, k5 l hl, hls⟩
          · by_cases hki : k = i
            · subst hki
              have hmeq := hka.symm.trans hat
              simp at hmeq
              subst hmeq
              obtain ⟨_, h3, _⟩ := reason_sat hc has.sat hat hru
              rcases h3 with h3 | ⟨x, hx, hxs⟩
              · exact absurd h3 hmn
              · obtain ⟨j, hj, hja⟩ := hrl x hx
                exact cov x j hj hja (k2 x hx) hxs
            · right
              refine ⟨k, m, by omega, hka, hml, k4 _ ?_, hmn⟩
              simp only
              rw [put_ne]
              · exact hmf
              · intro hv
                have := (hc.tr.uniq hka hat hv).1
                omega
        have hah := addLiterals_hashes e p ((p.reason lit.var).lits C.lits) { a with
            flags := put a.flags lit.var false
            count := a.count - 1
            hashes := a.hashes ++ [clauseHash ((p.reason lit.var).lits C.lits) ^^^ litHash lit] }
        rw [hfold] at hah
        have htr : ∀ l, Treated p a ws l →
            Treated p { b with involved := b.involved ++ (p.reason lit.var).cref } (ws ++ [lit]) l := by
          rintro l ⟨⟨j, hj⟩, h2⟩
          refine ⟨⟨j, hj⟩, ?_⟩
          rcases h2 with h2 | h2 | ⟨h2, h3⟩ | h2
          · exact .inl (by simp [h2])
          · exact .inr (.inl h2)
          · by_cases hv : l.var = lit.var
            · left
              have := (hc.tr.uniq hj hat (by simpa using hv)).2
              simp [this]
            · exact .inr (k3 l (.inr (.inl ⟨h2, by simp only; rw [put_ne _ _ hv]; exact h3⟩)))
          · exact .inr (.inr (.inr (k5 l h2)))
        have hW : WalkInv C p cl i { b with involved := b.involved ++ (p.reason lit.var).cref } (ws ++ [lit]) := by
          refine ⟨?_, hah.2.trans hw.unord, ?_, ?_, fun l hl => htr l (hw.cl l hl), ?_⟩
          · show b.hashes = _
            rw [hah.1]
            simp only [hw.hashes, List.map_append, List.map_cons, List.map_nil, List.cons_append]
            rfl
          · intro m hm
            rw [List.mem_append, List.mem_singleton] at hm
            rcases hm with hm | rfl
            · obtain ⟨k, h2, h3⟩ := hw.pos m hm
              exact ⟨k, by omega, h3⟩
            · exact ⟨i, Nat.le_refl _, hat, hlevlit, hru⟩
          · rw [List.pairwise_append]
            refine ⟨hw.desc, by simp, ?_⟩
            intro m hm n hn j k hj hk
            rw [List.mem_singleton] at hn
            subst hn
            obtain ⟨k', h2, h3, _⟩ := hw.pos m hm
            have e1 := (hc.tr.uniq hj h3 rfl).1
            have e2 := (hc.tr.uniq hk hat rfl).1
            omega
          · intro m hm l hl
            rw [List.mem_append, List.mem_singleton] at hm
            rcases hm with hm | rfl
            · exact htr l (hw.res m hm l hl)
            · obtain ⟨j, _, hj⟩ := hrl l hl
              exact ⟨⟨j, hj⟩, .inr (k2 l hl)⟩
        refine trailLoop_full hc hcur i _ _ (by omega) hB hres' ?_ hW
        simp only at k6 ⊢
        omega
    · rename_i hfl
      have hcount : a.count = (p.trail.take i).countP
          (fun l => a.flags l.var && decide (p.level l.var = p.curLevel)) := by
        rw [h.count, htake, List.countP_append]
        simp [hfl]
      refine trailLoop_full hc hcur i a ws (by omega) ⟨h.lit, h.nodup, h.clean, ?_, hcount, h.inv, h.vs, h.used⟩ ?_ hct
        ⟨hw.hashes, hw.unord, fun m hm => by obtain ⟨k, h2, h3⟩ := hw.pos m hm; exact ⟨k, by omega, h3⟩,
          hw.desc, hw.cl, hw.res⟩
      · intro v hv
        rcases h.flag v hv with h2 | ⟨k, l, hk, hka, hlv, hlev⟩
        · exact .inl h2
        · right
          refine ⟨k, l, ?_, hka, hlv, hlev⟩
          have hki : k ≠ i := by
            rintro rfl
            have := hka.symm.trans hat
            simp at this
            rw [this] at hlv; rw [hlv] at hfl; exact hfl hv
          omega
      · intro as has
        rcases hres as has with h2 | ⟨k, m, hk, hka, hml, hmf, hmn⟩
        · exact .inl h2
        · right
          refine ⟨k, m, ?_, hka, hml, hmf, hmn⟩
          have hki : k ≠ i := by
            rintro rfl
            have := hka.symm.trans hat
            simp at this
            rw [← this] at hfl; exact hfl hmf
          omega

end Varisat.Solver
