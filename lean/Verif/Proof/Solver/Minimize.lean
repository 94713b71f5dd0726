import Verif.Proof.Solver.Analyze
/-!
# Conflict analysis: minimisation and the final clause
-/
namespace Varisat.Solver

variable {α : Type} [LinearOrder α] {pres : Nat → Prop} {C : Cl} {p : Pt}

/-- The literal has a reason all of whose literals are flagged or of level 0. -/
def Just (C : Cl) (p : Pt) (flags : Nat → Bool) (m : Lit) : Prop :=
  p.reason m.var ≠ .unit ∧
  ∀ l ∈ (p.reason m.var).lits C.lits, p.level l.var = 0 ∨ flags l.var = true

theorem Just.mono {f g : Nat → Bool} {m : Lit} (h : Just C p f m) (hfg : ∀ v, f v = true → g v = true) :
    Just C p g m :=
  ⟨h.1, fun l hl => (h.2 l hl).imp id (hfg _)⟩

/-- Flagged variables are on the trail and are base literals, justified or in the stack. -/
structure MInv (C : Cl) (p : Pt) (base : List Lit) (stack : List Lit) (flags : Nat → Bool)
    (toClean : List Nat) : Prop where
  flag : ∀ v, flags v = true → ∃ k m, p.At k m ∧ m.var = v ∧
    (m.neg ∈ base ∨ m ∈ stack ∨ Just C p flags m)
  stack : ∀ m ∈ stack, flags m.var = true ∧ p.reason m.var ≠ .unit ∧ ∃ k, p.At k m
  clean : ∀ v, flags v = true ↔ v ∈ toClean

/-- Number of variables on the trail without flag. -/
def unflagged (p : Pt) (flags : Nat → Bool) : Nat := p.trail.countP (fun l => !flags l.var)

theorem unflagged_put (hp : p.Ok) {flags : Nat → Bool} {m : Lit} {k : Nat} (hm : p.At k m)
    (hf : flags m.var = false) : unflagged p (put flags m.var true) + 1 = unflagged p flags := by
  unfold unflagged
  have h1 := countP_put (f := flags) hp.nodup (m := m) hm.mem hf (fun _ => true) rfl
  simp only [Bool.and_true] at h1
  have h2 := List.length_eq_countP_add_countP (fun l : Lit => flags l.var) (l := p.trail)
  have h3 := List.length_eq_countP_add_countP (fun l : Lit => put flags m.var true l.var) (l := p.trail)
  simp only [Bool.not_eq_true] at h2 h3
  have h4 : ∀ f : Nat → Bool, p.trail.countP (fun l => decide (f l.var = false)) = p.trail.countP (fun l => !f l.var) := by
    intro f
    apply List.countP_congr
    intro l _
    simp
  rw [h4] at h2 h3
  omega

theorem dfsLits_ok (hp : p.Ok) {base : List Lit} {levels : BitVec 64} :
    ∀ (ls : List Lit) (flags : Nat → Bool) (tc : List Nat) (stack : List Lit)
      (flags' : Nat → Bool) (tc' : List Nat) (stack' : List Lit) (cur : Lit),
      (∀ l ∈ ls, ∃ k, p.At k l.neg) →
      MInv C p base (cur :: stack) flags tc →
      An.dfsLits p levels ls (flags, tc, stack) = some (flags', tc', stack') →
      MInv C p base (cur :: stack') flags' tc' ∧ (∀ v, flags v = true → flags' v = true) ∧
      (∀ l ∈ ls, p.level l.var = 0 ∨ flags' l.var = true) ∧
      unflagged p flags' + stack'.length = unflagged p flags + stack.length
  | [], flags, tc, stack, flags', tc', stack', cur, _, h, he => by
    simp only [An.dfsLits, Option.some.injEq, Prod.mk.injEq] at he
    obtain ⟨rfl, rfl, rfl⟩ := he
    exact ⟨h, fun _ h => h, by simp, rfl⟩
  | l :: ls, flags, tc, stack, flags', tc', stack', cur, hls, h, he => by
    rw [An.dfsLits] at he
    split at he
    · rename_i hc
      split at he
      · simp at he
      · rename_i hu
        simp only [not_or] at hu
        obtain ⟨k, hk⟩ := hls l (by simp)
        have hmono : ∀ v, flags v = true → put flags l.var true v = true := by
          intro v hv; unfold put; split
          · rfl
          · exact hv
        have hM : MInv C p base (cur :: l.neg :: stack) (put flags l.var true) (tc ++ [l.var]) := by
          refine ⟨?_, ?_, ?_⟩
          · intro v hv
            by_cases hvl : v = l.var
            · exact ⟨k, l.neg, hk, by simp [hvl], .inr (.inl (by simp))⟩
            · rw [put_ne _ _ hvl] at hv
              obtain ⟨j, m, h1, h2, h3⟩ := h.flag v hv
              refine ⟨j, m, h1, h2, ?_⟩
              rcases h3 with h3 | h3 | h3
              · exact .inl h3
              · right; left
                rcases List.mem_cons.1 h3 with rfl | h3
                · simp
                · simp [h3]
              · exact .inr (.inr (h3.mono hmono))
          · intro m hm
            rcases List.mem_cons.1 hm with rfl | hm
            · have := h.stack m (by simp)
              exact ⟨hmono _ this.1, this.2⟩
            · rcases List.mem_cons.1 hm with rfl | hm
              · exact ⟨by simp, by simpa using hu.1, k, hk⟩
              · have := h.stack m (by simp [hm])
                exact ⟨hmono _ this.1, this.2⟩
          · intro v
            rw [List.mem_append, List.mem_singleton, ← h.clean]
            by_cases hvl : v = l.var
            · simp [hvl]
            · rw [put_ne _ _ hvl]; simp [hvl]
        obtain ⟨k1, k2, k3, k4⟩ := dfsLits_ok hp ls _ _ _ flags' tc' stack' cur
          (fun m hm => hls m (by simp [hm])) hM he
        refine ⟨k1, fun v hv => k2 v (hmono v hv), ?_, ?_⟩
        · intro m hm
          rcases List.mem_cons.1 hm with rfl | hm
          · exact .inr (k2 _ (by simp))
          · exact k3 m hm
        · have := unflagged_put hp hk (flags := flags) (by simpa using hc.1)
          rw [Lit.var_neg] at this
          simp only [List.length_cons] at k4
          omega
    · rename_i hc
      obtain ⟨k1, k2, k3, k4⟩ := dfsLits_ok hp ls _ _ _ flags' tc' stack' cur
          (fun m hm => hls m (by simp [hm])) h he
      refine ⟨k1, k2, ?_, k4⟩
      intro m hm
      rcases List.mem_cons.1 hm with rfl | hm
      · by_cases h0 : p.level m.var = 0
        · exact .inl h0
        · right
          apply k2
          by_contra hne
          exact hc ⟨by simpa using hne, by omega⟩
      · exact k3 m hm

theorem reason_at (hc : CInv pres C p) {k : Nat} {l : Lit} (hk : p.At k l)
    (hr : p.reason l.var ≠ .unit) : ∀ m ∈ (p.reason l.var).lits C.lits, ∃ j, j < k ∧ p.At j m.neg := by
  have h := hc.rs k l hk
  unfold ReasonAt at h
  cases hre : p.reason l.var with
  | unit => exact absurd hre hr
  | binary m =>
    simp only [hre] at h
    simp only [Reason.lits, List.mem_singleton]; rintro x rfl; exact h.1
  | long c =>
    simp only [hre] at h
    obtain ⟨_, rest, hcl, hrest⟩ := h
    simp only [Reason.lits, hcl, List.tail_cons]
    exact hrest

theorem dfs_ok (hc : CInv pres C p) {base : List Lit} {levels : BitVec 64} :
    ∀ (fuel : Nat) (stack : List Lit) (flags : Nat → Bool) (tc : List Nat) (un : List (Option Nat × Nat)),
      MInv C p base stack flags tc → unflagged p flags + stack.length ≤ fuel →
      ∃ r, An.dfs p C.lits levels fuel stack flags tc un = some r ∧
        ∀ x, r = some x → MInv C p base [] x.1 x.2.1 ∧ (∀ v, flags v = true → x.1 v = true)
  | _, [], flags, tc, un, h, _ => by
    refine ⟨some (flags, tc, un), ?_, ?_⟩
    · unfold An.dfs; rfl
    · intro x hx
      simp only [Option.some.injEq] at hx
      subst hx
      exact ⟨h, fun _ h => h⟩
  | 0, m :: stack, flags, tc, un, h, hf => by simp at hf
  | fuel + 1, lit :: stack, flags, tc, un, h, hf => by
    rw [An.dfs]
    obtain ⟨hfl, hru, k, hk⟩ := h.stack lit (by simp)
    cases hd : An.dfsLits p levels ((p.reason lit.var).lits C.lits) (flags, tc, stack) with
    | none => exact ⟨none, rfl, by simp⟩
    | some r =>
      obtain ⟨flags', tc', stack'⟩ := r
      simp only
      obtain ⟨k1, k2, k3, k4⟩ := dfsLits_ok (C := C) hc.tr _ flags tc stack flags' tc' stack' lit
        (fun l hl => by obtain ⟨j, _, hj⟩ := reason_at hc hk hru l hl; exact ⟨j, hj⟩) h hd
      have hM : MInv C p base stack' flags' tc' := by
        refine ⟨?_, fun m hm => k1.stack m (by simp [hm]), k1.clean⟩
        intro v hv
        obtain ⟨j, m, h1, h2, h3⟩ := k1.flag v hv
        refine ⟨j, m, h1, h2, ?_⟩
        rcases h3 with h3 | h3 | h3
        · exact .inl h3
        · rcases List.mem_cons.1 h3 with rfl | h3
          · exact .inr (.inr ⟨hru, k3⟩)
          · exact .inr (.inl h3)
        · exact .inr (.inr h3)
      simp only [List.length_cons] at hf
      obtain ⟨r, hr1, hr2⟩ := dfs_ok hc fuel stack' flags' tc' _ hM (by omega)
      refine ⟨r, hr1, fun x hx => ?_⟩
      obtain ⟨h3, h4⟩ := hr2 x hx
      exact ⟨h3, fun v hv => h4 v (k2 v hv)⟩

theorem minLoop_ok (hc : CInv pres C p) {levels : BitVec 64} {fuel : Nat} (hfuel : p.trail.length ≤ fuel) :
    ∀ (ls : List Lit) (a : An α) (kept : List Lit), MInv C p (kept ++ ls) [] a.flags a.toClean →
      (∀ l ∈ ls, a.flags l.var = true ∧ ∃ k, p.At k l.neg) →
      (ls.map Lit.var).Nodup →
      ∃ a' ls', An.minLoop p C.lits levels fuel ls a = some (a', ls') ∧ ls'.Sublist ls ∧
        MInv C p (kept ++ ls') [] a'.flags a'.toClean ∧ (∀ v, a.flags v = true → a'.flags v = true) ∧
        a'.involved = a.involved ∧ a'.vsids = a.vsids
  | [], a, kept, h, _, _ => ⟨a, [], rfl, .refl _, h, fun _ h => h, rfl, rfl⟩
  | l :: ls, a, kept, h, hls, hnd => by
    rw [An.minLoop]
    obtain ⟨hlf, k, hk⟩ := hls l (by simp)
    simp only [List.map_cons, List.nodup_cons] at hnd
    have keep : ∃ a' ls', (An.minLoop p C.lits levels fuel ls a).map (fun r => (r.1, l :: r.2)) = some (a', ls') ∧
        ls'.Sublist (l :: ls) ∧
        MInv C p (kept ++ ls') [] a'.flags a'.toClean ∧ (∀ v, a.flags v = true → a'.flags v = true) ∧
        a'.involved = a.involved ∧ a'.vsids = a.vsids := by
      obtain ⟨a', ls', h1, h2, h3, h4⟩ := minLoop_ok hc hfuel ls a (kept ++ [l]) (by simpa using h)
        (fun m hm => hls m (by simp [hm])) hnd.2
      refine ⟨a', l :: ls', by rw [h1]; rfl, h2.cons_cons l, by simpa using h3, h4⟩
    split
    · exact keep
    · rename_i hru
      have hM : MInv C p (kept ++ ls) [l.neg] a.flags a.toClean := by
        refine ⟨?_, ?_, h.clean⟩
        · intro v hv
          obtain ⟨j, m, h1, h2, h3⟩ := h.flag v hv
          refine ⟨j, m, h1, h2, ?_⟩
          rcases h3 with h3 | h3 | h3
          · rw [List.mem_append, List.mem_cons] at h3
            rcases h3 with h3 | h3 | h3
            · exact .inl (by simp [h3])
            · right; left; rw [← h3]; simp
            · exact .inl (by simp [h3])
          · simp at h3
          · exact .inr (.inr h3)
        · intro m hm
          rw [List.mem_singleton] at hm
          subst hm
          exact ⟨by simpa using hlf, by simpa using hru, k, hk⟩
      have hbound : unflagged p a.flags + [l.neg].length ≤ fuel := by
        refine Nat.le_trans ?_ hfuel
        have h2 := List.length_eq_countP_add_countP (fun x : Lit => a.flags x.var) (l := p.trail)
        have h4 : p.trail.countP (fun x => decide ¬ a.flags x.var = true) = unflagged p a.flags := by
          apply List.countP_congr
          intro l _
          simp
        have h5 : 0 < p.trail.countP (fun x : Lit => a.flags x.var) := by
          rw [List.countP_pos_iff]; exact ⟨l.neg, hk.mem, by simpa using hlf⟩
        simp only [List.length_singleton]
        omega
      obtain ⟨r, hr1, hr2⟩ := dfs_ok hc fuel [l.neg] a.flags a.toClean a.unordered hM hbound
      rw [hr1]
      cases r with
      | none => exact keep
      | some x =>
        simp only
        obtain ⟨h3, h4⟩ := hr2 x rfl
        obtain ⟨a', ls', k1, k2, k3, k4, k5, k6⟩ := minLoop_ok hc hfuel ls
          { a with flags := x.1, toClean := x.2.1, unordered := x.2.2 } kept h3
          (fun m hm => ⟨h4 _ (hls m (by simp [hm])).1, (hls m (by simp [hm])).2⟩) hnd.2
        exact ⟨a', ls', k1, k2.cons l, k3, fun v hv => k4 v (h4 v hv), k5, k6⟩

/-- Flagged literals follow from the falsity of the base literals. -/
theorem MInv.implied (hc : CInv pres C p) {base : List Lit} {flags : Nat → Bool} {tc : List Nat}
    (h : MInv C p base [] flags tc) {as : Asg} (has : C.Mod p as) (hb : ¬ clauseSat as base) :
    ∀ k m, p.At k m → flags m.var = true → m.holds as := by
  intro k
  induction k using Nat.strongRecOn with
  | ind k ih =>
    intro m hk hf
    obtain ⟨j, m', h1, h2, h3⟩ := h.flag _ hf
    obtain ⟨rfl, rfl⟩ := hc.tr.uniq h1 hk h2
    rcases h3 with h3 | h3 | h3
    · by_contra hn
      apply hb
      exact ⟨m'.neg, h3, by rw [Lit.holds_neg]; exact hn⟩
    · simp at h3
    · obtain ⟨r1, r2, _⟩ := reason_sat hc has.sat hk h3.1
      rcases r2 with r2 | ⟨x, hx, hxs⟩
      · exact r2
      · exfalso
        obtain ⟨i, hi, hia⟩ := r1 x hx
        have : x.neg.holds as := by
          rcases h3.2 x hx with h4 | h4
          · apply has.root
            refine ⟨hc.tr.at_true hia, .inl ⟨i, hia, ?_⟩⟩
            rw [← hc.tr.level i _ hia]; simpa using h4
          · exact ih i hi _ hia (by simpa using h4)
        rw [Lit.holds_neg] at this
        exact this hxs

theorem minLoop_implied (hc : CInv pres C p) {fuel : Nat} (hfuel : p.trail.length ≤ fuel) {v0 : Vsids α}
    {a : An α} {u : Lit} {rest : List Lit} (h : Walked C p v0 a u rest) (levels : BitVec 64) :
    ∃ a' rest', An.minLoop p C.lits levels fuel rest a = some (a', rest') ∧ rest'.Sublist rest ∧
      (∀ as, C.Mod p as → clauseSat as (u :: rest')) ∧
      (∀ v, a'.flags v = true ↔ v ∈ a'.toClean) ∧
      a'.involved = a.involved ∧ a'.vsids = a.vsids := by
  have hM : MInv C p ([] ++ rest) [] a.flags a.toClean := by
    refine ⟨?_, by simp, fun v => by rw [h.flags, h.clean]⟩
    intro v hv
    obtain ⟨l, hl, rfl⟩ := List.mem_map.1 ((h.flags v).1 hv)
    obtain ⟨k, hk, _⟩ := h.lit l hl
    exact ⟨k, l.neg, hk, by simp, .inl (by simpa using hl)⟩
  obtain ⟨a', ls', h1, h2, h3, h4, h5, h6⟩ := minLoop_ok hc hfuel (levels := levels) rest a [] hM
    (fun l hl => ⟨(h.flags _).2 (List.mem_map.2 ⟨l, hl, rfl⟩), by obtain ⟨k, hk, _⟩ := h.lit l hl; exact ⟨k, hk⟩⟩)
    h.nodup
  refine ⟨a', ls', h1, h2, ?_, h3.clean, h5, h6⟩
  intro as has
  rw [clauseSat_cons]
  by_contra hne
  simp only [not_or] at hne
  have := h.implied as has
  rw [h.eq, clauseSat_cons] at this
  rcases this with this | ⟨l, hl, hls⟩
  · exact hne.1 this
  · obtain ⟨k, hk, _⟩ := h.lit l hl
    have hm := MInv.implied hc h3 has (by simpa using hne.2) k _ hk
      (by rw [Lit.var_neg]; exact h4 _ ((h.flags _).2 (List.mem_map.2 ⟨l, hl, rfl⟩)))
    rw [Lit.holds_neg] at hm
    exact hm hls

theorem minimize_ok (hc : CInv pres C p) {fuel : Nat} (hfuel : p.trail.length ≤ fuel) {v0 : Vsids α}
    {a : An α} {u : Lit} {rest : List Lit} (h : Walked C p v0 a u rest) :
    ∃ a' rest', An.minimize p C.lits fuel a = some a' ∧ a'.clause = u :: rest' ∧ rest'.Sublist rest ∧
      (∀ as, C.Mod p as → clauseSat as a'.clause) ∧
      (∀ v, a'.flags v = true ↔ v ∈ a'.toClean) ∧
      a'.involved = a.involved ∧ a'.vsids = a.vsids := by
  unfold An.minimize
  rw [h.eq]
  simp only
  obtain ⟨a', ls', h1, h2, h3, h4, h5, h6⟩ := minLoop_implied hc hfuel h
    ((u :: rest).foldl (fun b l => An.levelAdd b (p.level l.var)) 0)
  rw [h1]
  exact ⟨_, ls', rfl, rfl, h2, h3, h4, h5, h6⟩

theorem pickSecond_spec (p : Pt) : ∀ (l1 : Lit) (ls : List Lit),
    (An.pickSecond p l1 (p.level l1.var) ls).2.1 = p.level (An.pickSecond p l1 (p.level l1.var) ls).1.var ∧
    ((An.pickSecond p l1 (p.level l1.var) ls).1 :: (An.pickSecond p l1 (p.level l1.var) ls).2.2).Perm (l1 :: ls) ∧
    p.level l1.var ≤ (An.pickSecond p l1 (p.level l1.var) ls).2.1 ∧
    ∀ l ∈ ls, p.level l.var ≤ (An.pickSecond p l1 (p.level l1.var) ls).2.1
  | l1, [] => by simp [An.pickSecond]
  | l1, l :: ls => by
    rw [An.pickSecond]
    split
    · rename_i hgt
      obtain ⟨h1, h2, h3, h4⟩ := pickSecond_spec p l ls
      simp only
      refine ⟨h1, ?_, by omega, ?_⟩
      · exact (List.Perm.swap ..).trans (List.Perm.cons _ h2)
      · intro m hm
        rcases List.mem_cons.1 hm with rfl | hm
        · exact h3
        · exact h4 m hm
    · rename_i hgt
      obtain ⟨h1, h2, h3, h4⟩ := pickSecond_spec p l1 ls
      simp only
      refine ⟨h1, ?_, h3, ?_⟩
      · refine (List.Perm.swap ..).trans ((List.Perm.cons _ h2).trans (List.Perm.swap ..))
      · intro m hm
        rcases List.mem_cons.1 hm with rfl | hm
        · omega
        · exact h4 m hm

/-- What is known about a learned clause. -/
structure LRes (C : Cl) (p : Pt) (v0 : Vsids α) (L : Learned α) : Prop where
  eq : ∃ u rest, L.clause = u :: rest ∧ (∃ k, p.At k u.neg ∧ p.level u.var = p.curLevel) ∧
    (∀ l ∈ rest, ∃ k, p.At k l.neg ∧ 0 < p.level l.var ∧ p.level l.var < p.curLevel) ∧
    (rest.map Lit.var).Nodup ∧ (∀ l ∈ rest, p.level l.var ≤ L.backtrackTo) ∧
    (∀ l, rest.head? = some l → p.level l.var = L.backtrackTo) ∧ (rest = [] → L.backtrackTo = 0)
  implied : ∀ as, C.Mod p as → clauseSat as L.clause
  flags : ∀ v, L.flags v = false
  inv : ∀ c ∈ L.involved, C.live c
  vs : VSame v0 L.vsids
  used : ∀ l ∈ L.clause, C.Used l.var

theorem foldl_put_false (ls : List Nat) (f : Nat → Bool) (v : Nat) :
    ls.foldl (fun f v => put f v false) f v = if v ∈ ls then false else f v := by
  induction ls generalizing f with
  | nil => simp
  | cons x xs ih =>
    rw [List.foldl_cons, ih]
    by_cases hx : v ∈ xs
    · simp [hx]
    · by_cases hvx : v = x
      · subst hvx; simp [hx]
      · simp [hx, hvx, put_ne]

theorem Conflict.sat {c : Conflict} (hin : c.IsIn C.bin C.lits C.live) {as : Asg} (hs : C.Sat as) :
    clauseSat as (c.lits C.lits) := by
  cases c with
  | binary a b =>
    simp only [Conflict.lits]
    rw [clauseSat_cons, clauseSat_singleton]
    by_cases hb : b.holds as
    · exact .inr hb
    · left
      exact hs.bin _ _ hin (by rw [Lit.holds_neg]; exact hb)
  | long c => exact hs.long c hin

/-- The state of the analysis before the loop over the trail. -/
def walkStart (e : Env α) (p : Pt) (lits : Nat → List Lit) (flags : Nat → Bool) (v0 : Vsids α) (c : Conflict) : An α :=
  let a := (c.lits lits).foldl (An.addLiteral e p) { flags := flags, vsids := v0, hashes := [clauseHash (c.lits lits)] }
  { a with involved := a.involved ++ c.cref }

theorem walk_full {e : Env α} (hc : CInv pres C p) {c : Conflict} (hcf : CRes pres C p c)
    (hcur : 0 < p.curLevel) {flags : Nat → Bool} (hflags : ∀ v, flags v = false) {v0 : Vsids α}
    (hv0 : Vsids.WF v0) :
    ∃ a u rest, An.trailLoop e p C.lits p.trail.reverse (walkStart e p C.lits flags v0 c) = some a ∧
      Walked C p v0 a u rest ∧ ∃ ws, WEnd C p (c.lits C.lits) a ws := by
  have hat : ∀ l ∈ c.lits C.lits, ∃ j, j < p.trail.length ∧ p.At j l.neg := by
    intro l hl
    obtain ⟨k, hk⟩ := hc.tr.at_of_false (hcf.att l hl).2 (hcf.false_ l hl)
    exact ⟨k, hk.lt, hk⟩
  have hcu : ∀ l ∈ c.lits C.lits, C.Used l.var := by
    have hin := hcf.isIn
    cases c with
    | binary x y =>
      simp only [Conflict.lits, List.mem_cons, List.not_mem_nil, or_false]
      rintro l (rfl | rfl)
      · exact .inr ⟨_, _, hin, rfl⟩
      · exact .inr ⟨_, _, hc.binSym _ _ hin, by simp⟩
    | long x => intro l hl; exact .inl ⟨x, hin, l, hl, rfl⟩
  have hA : AInv C p v0 p.trail.length
      ({ flags := flags, vsids := v0, hashes := [clauseHash (c.lits C.lits)] } : An α) := by
    refine ⟨by simp, by simp, by simp, ?_, ?_, by simp, VSame.refl hv0, by simp [hflags]⟩
    · intro v hv; simp [hflags] at hv
    · simp [hflags]
  obtain ⟨k1, k2, k3, k4, k5, k6⟩ := addLiterals_ok (e := e) hc.tr _ _ hA hat hcu
  have hh := addLiterals_hashes e p (c.lits C.lits)
    ({ flags := flags, vsids := v0, hashes := [clauseHash (c.lits C.lits)] } : An α)
  unfold walkStart
  simp only
  generalize (c.lits C.lits).foldl (An.addLiteral e p)
    ({ flags := flags, vsids := v0, hashes := [clauseHash (c.lits C.lits)] } : An α) = a at *
  have hB : AInv C p v0 p.trail.length { a with involved := a.involved ++ c.cref } := by
    refine ⟨k1.lit, k1.nodup, k1.clean, k1.flag, k1.count, ?_, k1.vs, k1.used⟩
    intro x hx
    simp only [List.mem_append] at hx
    rcases hx with hx | hx
    · exact k1.inv x hx
    · have := hcf.isIn
      cases c with
      | binary => simp [Conflict.cref] at hx
      | long c => simp [Conflict.cref] at hx; subst hx; exact this
  have hres : An.Res C p p.trail.length { a with involved := a.involved ++ c.cref } := by
    intro as has
    obtain ⟨m, hm, hms⟩ := Conflict.sat hcf.isIn has.sat
    obtain ⟨j, hj, hja⟩ := hat m hm
    rcases k2 m hm with h2 | ⟨h2, h3⟩ | h2
    · exfalso
      have : m.neg.holds as := by
        apply has.root
        refine ⟨hc.tr.at_true hja, .inl ⟨j, hja, ?_⟩⟩
        rw [← hc.tr.level j _ hja]; simpa using h2
      rw [Lit.holds_neg] at this
      exact this hms
    · right
      exact ⟨j, m.neg, hj, hja, by simpa using h2, by simpa using h3, by rw [Lit.holds_neg]; simpa using hms⟩
    · exact .inl ⟨m, h2, hms⟩
  have hcount : 1 ≤ a.count := by
    obtain ⟨lit, hl1, hl2, hl3, _⟩ := hcf.cur
    rw [k1.count]
    apply List.countP_pos_iff.2
    obtain ⟨k, hk, hka⟩ := hl2
    refine ⟨lit, mem_take_of_at hka hka.lt, ?_⟩
    simp only [Bool.and_eq_true, decide_eq_true_eq]
    refine ⟨?_, hl3⟩
    rcases k2 _ hl1 with h2 | ⟨_, h2⟩ | h2
    · simp at h2; omega
    · simpa using h2
    · obtain ⟨_, _, _, h4, _⟩ := k1.lit _ h2
      simp at h4; omega
  have hW : WalkInv C p (c.lits C.lits) p.trail.length { a with involved := a.involved ++ c.cref } [] := by
    refine ⟨hh.1, hh.2, by simp, .nil, ?_, by simp⟩
    intro l hl
    obtain ⟨j, _, hj⟩ := hat l hl
    exact ⟨⟨j, hj⟩, .inr (k2 l hl)⟩
  obtain ⟨a1, u, rest, h1, hw⟩ := trailLoop_full (e := e) hc hcur p.trail.length _ _ (Nat.le_refl _) hB hres hcount hW
  rw [List.take_length] at h1
  exact ⟨a1, u, rest, h1, hw⟩

theorem walk_ok {e : Env α} (hc : CInv pres C p) {c : Conflict} (hcf : CRes pres C p c)
    (hcur : 0 < p.curLevel) {flags : Nat → Bool} (hflags : ∀ v, flags v = false) {v0 : Vsids α}
    (hv0 : Vsids.WF v0) :
    ∃ a u rest, An.trailLoop e p C.lits p.trail.reverse (walkStart e p C.lits flags v0 c) = some a ∧
      Walked C p v0 a u rest := by
  obtain ⟨a, u, rest, h1, h2, _⟩ := walk_full (e := e) hc hcf hcur hflags hv0
  exact ⟨a, u, rest, h1, h2⟩

theorem analyze_ok {e : Env α} (hc : CInv pres C p) {c : Conflict} (hcf : CRes pres C p c)
    (hcur : 0 < p.curLevel) {flags : Nat → Bool} (hflags : ∀ v, flags v = false) {v0 : Vsids α}
    (hv0 : Vsids.WF v0) {fuel : Nat} (hfuel : p.trail.length ≤ fuel) :
    ∃ L, analyze e p C.lits flags v0 fuel c = .ok L ∧ LRes C p v0 L := by
  unfold analyze
  simp only
  rw [if_neg (by omega)]
  obtain ⟨a1, u, rest, h1, hw⟩ := walk_ok (e := e) hc hcf hcur hflags hv0
  unfold walkStart at h1
  simp only at h1
  rw [h1]
  simp only
  obtain ⟨a2, rest', m1, m2, m3, m4, m5, m6, m7⟩ := minimize_ok hc hfuel hw
  rw [m1]
  simp only
  refine ⟨_, rfl, ?_⟩
  have hlit : ∀ l ∈ rest', ∃ k, p.At k l.neg ∧ 0 < p.level l.var ∧ p.level l.var < p.curLevel :=
    fun l hl => hw.lit l (m3.subset hl)
  have hnd : (rest'.map Lit.var).Nodup := (m3.map _).nodup hw.nodup
  have hflags' : ∀ v, a2.toClean.foldl (fun f v => put f v false) a2.flags v = false := by
    intro v
    rw [foldl_put_false]
    split
    · rfl
    · rename_i hv
      rw [← m5] at hv
      simpa using hv
  have hvs : VSame v0 (a2.vsids.decay e.ar) := by
    rw [m7]
    obtain ⟨d1, d2, d3⟩ := Vsids.decay_wf e.ar hw.vs.wf
    exact hw.vs.trans ⟨d1, d2, d3⟩
  have hinv : ∀ c ∈ a2.involved, C.live c := by rw [m6]; exact hw.inv
  have hused : ∀ l ∈ u :: rest', C.Used l.var := by
    intro l hl
    apply hw.used
    rw [hw.eq]
    exact (m3.cons_cons u).subset hl
  cases rest' with
  | nil =>
    refine ⟨⟨u, [], ?_, hw.uip, by simp, by simp, by simp, by simp, ?_⟩, ?_, hflags', hinv, hvs, ?_⟩
    rotate_right
    · simp only [m2, An.secondLit]; exact hused
    · simp only [m2, An.secondLit]
    · intro _; simp only [m2, An.secondLit]
    · have : (An.secondLit p a2.clause).1 = a2.clause := by rw [m2]; rfl
      simp only [this]; exact m4
  | cons l1 ls =>
    obtain ⟨s1, s2, s3, s4⟩ := pickSecond_spec p l1 ls
    have hsec : An.secondLit p a2.clause =
        (u :: (An.pickSecond p l1 (p.level l1.var) ls).1 :: (An.pickSecond p l1 (p.level l1.var) ls).2.2,
          (An.pickSecond p l1 (p.level l1.var) ls).2.1) := by rw [m2]; rfl
    simp only [hsec]
    refine ⟨⟨u, _, rfl, hw.uip, ?_, ?_, ?_, ?_, by simp⟩, ?_, hflags', hinv, hvs,
      fun l hl => hused l ((List.Perm.cons u s2).mem_iff.1 hl)⟩
    · intro l hl; exact hlit l (s2.mem_iff.1 hl)
    · rw [(s2.map _).nodup_iff]; exact hnd
    · intro l hl
      rcases List.mem_cons.1 (s2.mem_iff.1 hl) with rfl | h
      · exact s3
      · exact s4 l h
    · intro l hl
      simp only [List.head?_cons, Option.some.injEq] at hl
      subst hl; exact s1.symm
    · intro as has
      have := m4 as has
      rw [m2] at this
      obtain ⟨x, hx, hxs⟩ := this
      exact ⟨x, (List.Perm.cons u s2).mem_iff.2 hx, hxs⟩

end Varisat.Solver
