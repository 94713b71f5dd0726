import Verif.Proof.Solver.Glue
/-!
# `analyze_assumption_conflict`
-/
namespace Varisat.Solver

variable {α : Type} [LinearOrder α]

/-- Number of flagged literals. -/
def flagged (f : Nat → Bool) (tr : List Lit) : Nat := tr.countP (fun l => f l.var)

theorem flagged_put {f : Nat → Bool} {v : Nat} (hv : f v = false) : ∀ {tr : List Lit}, (tr.map Lit.var).Nodup →
    (∃ l ∈ tr, l.var = v) → flagged (put f v true) tr = flagged f tr + 1
  | [], _, h => by obtain ⟨l, hl, _⟩ := h; cases hl
  | x :: tr, hn, h => by
    rw [List.map_cons, List.nodup_cons] at hn
    unfold flagged
    rw [List.countP_cons, List.countP_cons]
    by_cases hx : x.var = v
    · subst hx
      have h1 : (put f x.var true) x.var = true := by simp [put]
      have h2 : List.countP (fun l => put f x.var true l.var) tr = List.countP (fun l => f l.var) tr := by
        refine List.countP_congr (fun y hy => ?_)
        have : y.var ≠ x.var := fun q => hn.1 (q ▸ List.mem_map_of_mem hy)
        simp [put, this]
      rw [h2, h1, hv]; simp
    · have h1 : (put f v true) x.var = f x.var := by simp [put, hx]
      obtain ⟨l, hl, hlv⟩ := h
      have ih := flagged_put hv hn.2 ⟨l, by
        rcases List.mem_cons.1 hl with rfl | hl
        · exact absurd hlv hx
        · exact hl, hlv⟩
      unfold flagged at ih
      rw [h1, ih]; omega

theorem flagged_zero {f : Nat → Bool} {tr : List Lit} (h : flagged f tr = 0) : ∀ l ∈ tr, f l.var = false := by
  intro l hl
  unfold flagged at h
  rw [List.countP_eq_zero] at h
  simpa using h l hl

/-- What `Fail.addLit` does for literals of the rest of the trail. -/
theorem addLits_spec {tr : List Lit} (hn : (tr.map Lit.var).Nodup) : ∀ (rl : List Lit) (f : St.Fail),
    (∀ y ∈ rl, ∃ l ∈ tr, l.var = y.var) → f.count = flagged f.flags tr →
    (∀ v, f.flags v = true → ∃ l ∈ tr, l.var = v) →
    (rl.foldl St.Fail.addLit f).count = flagged (rl.foldl St.Fail.addLit f).flags tr ∧
    (rl.foldl St.Fail.addLit f).core = f.core ∧
    (∀ v, (rl.foldl St.Fail.addLit f).flags v = true → ∃ l ∈ tr, l.var = v) ∧
    (∀ v, f.flags v = true → (rl.foldl St.Fail.addLit f).flags v = true) ∧
    (∀ y ∈ rl, (rl.foldl St.Fail.addLit f).flags y.var = true) ∧
    (rl.foldl St.Fail.addLit f).hashes = f.hashes
  | [], f, _, h1, h2 => ⟨h1, rfl, h2, fun _ h => h, by simp, rfl⟩
  | y :: rl, f, h0, h1, h2 => by
    rw [List.foldl_cons]
    have hy := h0 y (by simp)
    have key : (f.addLit y).count = flagged (f.addLit y).flags tr ∧ (f.addLit y).core = f.core ∧
        (∀ v, (f.addLit y).flags v = true → ∃ l ∈ tr, l.var = v) ∧ (∀ v, f.flags v = true → (f.addLit y).flags v = true) ∧
        (f.addLit y).flags y.var = true ∧ (f.addLit y).hashes = f.hashes := by
      unfold St.Fail.addLit
      split
      · rename_i hf; exact ⟨h1, rfl, h2, fun _ h => h, hf, rfl⟩
      · rename_i hf
        rw [Bool.not_eq_true] at hf
        refine ⟨?_, rfl, ?_, ?_, by simp [put], rfl⟩
        · simp only; rw [flagged_put hf hn hy, h1]
        · intro v hv
          simp only [put] at hv
          split at hv
          · rename_i hvy; rw [hvy]; exact hy
          · exact h2 v hv
        · intro v hv
          simp only [put]
          split
          · rfl
          · exact hv
    obtain ⟨k1, k2, k3, k4, k5, k6⟩ := addLits_spec hn rl (f.addLit y) (fun z hz => h0 z (by simp [hz])) key.1 key.2.2.1
    refine ⟨k1, k2.trans key.2.1, k3, fun v hv => k4 v (key.2.2.2.1 v hv), ?_, k6.trans key.2.2.2.2.2⟩
    intro z hz
    rcases List.mem_cons.1 hz with rfl | hz
    · exact k4 _ key.2.2.2.2.1
    · exact k5 z hz

/-- The flagged literals cannot all be true together with the failed core. -/
def Blocked (C : Cl) (p : Pt) (f : St.Fail) (tr : List Lit) : Prop :=
  ∀ ν, C.Mod p ν → (∀ l ∈ f.core, l.holds ν) → (∀ l ∈ tr, f.flags l.var = true → l.holds ν) → False

/-- The literals of the reason are false because of earlier literals, and the reason implies the literal. -/
theorem reason_spec {pres : Nat → Prop} {C : Cl} {p : Pt} (h : CInv pres C p) {k : Nat} {l : Lit} (hk : p.At k l)
    (hr : p.reason l.var ≠ .unit) : (∀ y ∈ (p.reason l.var).lits C.lits, ∃ j, j < k ∧ p.At j y.neg) ∧
      ∀ ν, C.Sat ν → (∀ y ∈ (p.reason l.var).lits C.lits, y.neg.holds ν) → l.holds ν := by
  have hrs := h.rs k l hk
  unfold ReasonAt at hrs
  cases hre : p.reason l.var with
  | unit => exact absurd hre hr
  | binary m =>
    rw [hre] at hrs
    obtain ⟨h1, h2⟩ := hrs
    refine ⟨?_, ?_⟩
    · intro y hy
      simp only [Reason.lits, List.mem_singleton] at hy
      subst hy; exact h1
    · intro ν hν hy
      exact hν.bin _ _ h2 (hy m (by simp [Reason.lits]))
  | long c =>
    rw [hre] at hrs
    obtain ⟨h1, rest, h2, h3⟩ := hrs
    have hl : (Reason.long c).lits C.lits = rest := by simp [Reason.lits, h2]
    rw [hl]
    refine ⟨h3, fun ν hν hy => ?_⟩
    have := hν.long c h1
    rw [h2, clauseSat_cons] at this
    rcases this with this | ⟨m, hm, hma⟩
    · exact this
    · exfalso
      have := hy m hm
      rw [Lit.holds_neg] at this
      exact this hma

/-- The loop over the trail. -/
theorem failLoop_spec {pres : Nat → Prop} {C : Cl} {p : Pt} (h : CInv pres C p) : ∀ (k : Nat), k ≤ p.trail.length →
    ∀ (f : St.Fail), f.count = flagged f.flags (p.trail.take k).reverse →
    (∀ v, f.flags v = true → ∃ l ∈ (p.trail.take k).reverse, l.var = v) →
    Blocked C p f (p.trail.take k).reverse →
    (∀ v, (St.failLoop p C.lits (p.trail.take k).reverse f).flags v = false) ∧
    ∀ ν, C.Mod p ν → ¬ ∀ l ∈ (St.failLoop p C.lits (p.trail.take k).reverse f).core, l.holds ν
  | 0, _, f, h1, h2, h3 => by
    simp only [List.take_zero, List.reverse_nil, St.failLoop] at *
    constructor
    · intro v
      by_contra hc
      obtain ⟨l, hl, _⟩ := h2 v (by simpa using hc)
      cases hl
    · intro ν hν hc
      exact h3 ν hν hc (fun l hl => by cases hl)
  | k + 1, hk, f, h1, h2, h3 => by
    have hlt : k < p.trail.length := hk
    obtain ⟨lit, hlit⟩ : ∃ lit, lit = p.trail[k] := ⟨_, rfl⟩
    have hat : p.At k lit := by unfold Pt.At; rw [hlit]; exact List.getElem?_eq_getElem hlt
    have htr : (p.trail.take (k + 1)).reverse = lit :: (p.trail.take k).reverse := by
      rw [List.take_add_one, List.getElem?_eq_getElem hlt, ← hlit]; simp
    have hnd : ((lit :: (p.trail.take k).reverse).map Lit.var).Nodup := by
      rw [← htr, List.map_reverse, List.nodup_reverse, List.map_take]
      exact (List.take_sublist _ _).nodup h.tr.nodup
    rw [htr] at h1 h2 h3 ⊢
    rw [List.map_cons, List.nodup_cons] at hnd
    have hne : ∀ l ∈ (p.trail.take k).reverse, l.var ≠ lit.var := fun l hl q => hnd.1 (q ▸ List.mem_map_of_mem hl)
    have hmem : ∀ j l, j < k → p.At j l → l ∈ (p.trail.take k).reverse := by
      intro j l hj hl
      rw [List.mem_reverse, List.mem_take_iff_getElem]
      have := List.getElem?_eq_some_iff.1 hl
      obtain ⟨q1, q2⟩ := this
      exact ⟨j, by simp; omega, q2⟩
    rw [St.failLoop]
    by_cases hf : f.flags lit.var = true
    · rw [if_pos hf]
      simp only
      obtain ⟨f1, hf1⟩ : ∃ f1 : St.Fail, f1 = { f with flags := put f.flags lit.var false, count := f.count - 1 } := ⟨_, rfl⟩
      have c1 : f1.count = flagged f1.flags (p.trail.take k).reverse := by
        rw [hf1]
        simp only
        rw [h1]
        unfold flagged
        rw [List.countP_cons, hf]
        simp only [if_true, Nat.add_sub_cancel]
        refine List.countP_congr (fun y hy => ?_)
        simp [put, hne y hy]
      have c2 : ∀ v, f1.flags v = true → ∃ l ∈ (p.trail.take k).reverse, l.var = v := by
        intro v hv
        rw [hf1] at hv
        simp only [put] at hv
        split at hv
        · cases hv
        · rename_i hvl
          obtain ⟨l, hl, hlv⟩ := h2 v hv
          rcases List.mem_cons.1 hl with rfl | hl
          · exact absurd hlv.symm hvl
          · exact ⟨l, hl, hlv⟩
      have c3 : ∀ l ∈ (p.trail.take k).reverse, f.flags l.var = true → f1.flags l.var = true := by
        intro l hl hfl
        rw [hf1]; simp [put, hne l hl, hfl]
      have fin : ∀ g : St.Fail, g.count = flagged g.flags (p.trail.take k).reverse →
          (∀ v, g.flags v = true → ∃ l ∈ (p.trail.take k).reverse, l.var = v) → Blocked C p g (p.trail.take k).reverse →
          (∀ v, (if g.count = 0 then g else St.failLoop p C.lits (p.trail.take k).reverse g).flags v = false) ∧
          ∀ ν, C.Mod p ν → ¬ ∀ l ∈ (if g.count = 0 then g else St.failLoop p C.lits (p.trail.take k).reverse g).core, l.holds ν := by
        intro g g1 g2 g3
        split
        · rename_i hz
          rw [hz] at g1
          have hno := flagged_zero g1.symm
          constructor
          · intro v
            by_contra hc
            have hc : g.flags v = true := by simpa using hc
            obtain ⟨l, hl, hlv⟩ := g2 v hc
            have := hno l hl
            rw [hlv, hc] at this; cases this
          · intro ν hν hc
            exact g3 ν hν hc (fun l hl q => by rw [hno l hl] at q; cases q)
        · exact failLoop_spec h k (by omega) g g1 g2 g3
      subst hf1
      by_cases hr : p.reason lit.var = .unit
      · rw [if_pos hr]
        by_cases hl : p.level lit.var > 0
        · rw [if_pos hl]
          refine fin { f with core := f.core ++ [lit], flags := put f.flags lit.var false, count := f.count - 1 } c1 c2 ?_
          intro ν hν hc hfl
          refine h3 ν hν (fun l hl => hc l (by simp [hl])) (fun l hl q => ?_)
          rcases List.mem_cons.1 hl with rfl | hl
          · exact hc l (by simp)
          · exact hfl l hl (c3 l hl q)
        · rw [if_neg hl]
          refine fin { f with flags := put f.flags lit.var false, count := f.count - 1 } c1 c2 ?_
          intro ν hν hc hfl
          refine h3 ν hν (fun l hl => hc l hl) (fun l hl' q => ?_)
          rcases List.mem_cons.1 hl' with rfl | hl'
          · refine hν.root _ ⟨h.tr.at_true hat, .inl ⟨k, hat, ?_⟩⟩
            rw [← h.tr.level k l hat]; omega
          · exact hfl l hl' (c3 l hl' q)
      · rw [if_neg hr]
        obtain ⟨r1, r2⟩ := reason_spec h hat hr
        obtain ⟨f2, hf2⟩ : ∃ f2 : St.Fail, f2 = { f with flags := put f.flags lit.var false, count := f.count - 1, hashes := f.hashes ++ [clauseHash ((p.reason lit.var).lits C.lits) ^^^ litHash lit] } := ⟨_, rfl⟩
        rw [← hf2]
        obtain ⟨a1, a2, a3, a4, a5, _⟩ := addLits_spec hnd.2 ((p.reason lit.var).lits C.lits) f2 (by
          intro y hy
          obtain ⟨j, hj, hjy⟩ := r1 y hy
          exact ⟨y.neg, hmem j _ hj hjy, by simp⟩) (by rw [hf2]; exact c1) (by rw [hf2]; exact c2)
        refine fin _ a1 a3 ?_
        intro ν hν hc hfl
        refine h3 ν hν (fun l hl => hc l (by rw [a2, hf2]; exact hl)) (fun l hl q => ?_)
        rcases List.mem_cons.1 hl with rfl | hl
        · refine r2 ν hν.sat (fun y hy => ?_)
          obtain ⟨j, hj, hjy⟩ := r1 y hy
          exact hfl _ (hmem j _ hj hjy) (by simpa using a5 y hy)
        · exact hfl l hl (a4 _ (by rw [hf2]; exact c3 l hl q))
    · rw [if_neg hf]
      rw [Bool.not_eq_true] at hf
      refine failLoop_spec h k (by omega) f ?_ ?_ ?_
      · rw [h1]; unfold flagged; rw [List.countP_cons, hf]; simp
      · intro v hv
        obtain ⟨l, hl, hlv⟩ := h2 v hv
        rcases List.mem_cons.1 hl with rfl | hl
        · rw [hlv, hv] at hf; cases hf
        · exact ⟨l, hl, hlv⟩
      · intro ν hν hc hfl
        refine h3 ν hν hc (fun l hl q => ?_)
        rcases List.mem_cons.1 hl with rfl | hl
        · rw [hf] at q; cases q
        · exact hfl l hl q

/-- Without flagged literals on the trail nothing happens. -/
theorem failLoop_none (p : Pt) (lits : Nat → List Lit) : ∀ (tr : List Lit) (f : St.Fail), (∀ l ∈ tr, f.flags l.var = false) →
    St.failLoop p lits tr f = f
  | [], _, _ => rfl
  | x :: tr, f, h => by
    rw [St.failLoop, if_neg (by rw [h x (by simp)]; simp)]
    exact failLoop_none p lits tr f (fun l hl => h l (by simp [hl]))

/-- `analyze_assumption_conflict` with clean flags: the core is refuted by the clauses; and either the flags are
clean afterwards or the core is the single assumption. -/
theorem fail_spec {pres : Nat → Prop} {C : Cl} {p : Pt} (h : CInv pres C p) {flags : Nat → Bool} (hc : ∀ v, flags v = false)
    {a : Lit} (ha : p.isFalse a = true) :
    ((∀ v, (St.failLoop p C.lits p.trail.reverse { core := [a], flags := put flags a.var true, count := 1 }).flags v = false) ∨
      ((St.failLoop p C.lits p.trail.reverse { core := [a], flags := put flags a.var true, count := 1 }).core = [a] ∧
        ∀ v, v ≠ a.var → (St.failLoop p C.lits p.trail.reverse { core := [a], flags := put flags a.var true, count := 1 }).flags v = false)) ∧
    ∀ ν, C.Mod p ν → ¬ ∀ l ∈ (St.failLoop p C.lits p.trail.reverse { core := [a], flags := put flags a.var true, count := 1 }).core, l.holds ν := by
  have ht : p.isTrue a.neg = true := by rw [Pt.isTrue_neg]; exact ha
  by_cases hat : ∃ k, p.At k a.neg
  · have htake : p.trail.take p.trail.length = p.trail := List.take_length
    have hmem : a.neg ∈ p.trail.reverse := by
      rw [List.mem_reverse]; obtain ⟨k, hk⟩ := hat; exact hk.mem
    have key := failLoop_spec h p.trail.length (Nat.le_refl _) { core := [a], flags := put flags a.var true, count := 1 } (by
      rw [htake]
      have hnd : ((p.trail.reverse).map Lit.var).Nodup := by
        rw [List.map_reverse, List.nodup_reverse]; exact h.tr.nodup
      simp only
      rw [flagged_put (hc _) hnd ⟨_, hmem, by simp⟩]
      have : flagged flags p.trail.reverse = 0 := by
        unfold flagged; rw [List.countP_eq_zero]; intro l _; simp [hc]
      rw [this]) (by
      rw [htake]
      intro v hv
      simp only [put] at hv
      split at hv
      · rename_i hva; exact ⟨_, hmem, by rw [hva]; simp⟩
      · rw [hc] at hv; cases hv) (by
      rw [htake]
      intro ν hν hcore hfl
      have h1 := hfl _ hmem (by simp [put])
      rw [Lit.holds_neg] at h1
      exact h1 (hcore a (by simp)))
    rw [htake] at key
    exact ⟨.inl key.1, key.2⟩
  · have hno : ∀ l ∈ p.trail.reverse, (put flags a.var true) l.var = false := by
      intro l hl
      simp only [put]
      split
      · rename_i hv
        exfalso
        rw [List.mem_reverse] at hl
        obtain ⟨k, hk⟩ := Pt.At.of_mem hl
        have h2 := h.tr.val l hl
        rw [hv] at h2
        have h3 := Pt.isTrue_iff.1 ht
        rw [Lit.var_neg, h2] at h3
        have : l = a.neg := Lit.ext_var_neg (by simpa using hv) (by
          cases h5 : l.isNeg <;> cases h6 : a.neg.isNeg <;> simp_all)
        subst this
        exact hat ⟨k, hk⟩
      · exact hc _
    rw [failLoop_none p C.lits _ _ hno]
    refine ⟨.inr ⟨rfl, fun v hv => by simp [put, hv, hc]⟩, fun ν hν hcore => ?_⟩
    have hroot : p.Root a.neg := by
      refine ⟨ht, .inr ?_⟩
      rcases h.tr.off a.neg.var (by rw [Pt.isTrue_iff.1 ht]; simp) with ⟨l, hl, hlv⟩ | h1
      · exfalso
        obtain ⟨k, hk⟩ := Pt.At.of_mem hl
        have h2 := h.tr.val l hl
        have h3 := Pt.isTrue_iff.1 ht
        rw [hlv, h3] at h2
        have : a.neg = l := Lit.ext_var_neg hlv.symm (by
          cases h5 : l.isNeg <;> cases h6 : a.neg.isNeg <;> simp_all)
        rw [← this] at hk
        exact hat ⟨k, hk⟩
      · exact h1
    have := hν.root _ hroot
    rw [Lit.holds_neg] at this
    exact this (hcore a (by simp))

end Varisat.Solver
