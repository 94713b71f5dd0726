import Verif.Proof.Solver.Minimize
import Verif.Spec.Rup
/-!
# Conflict analysis: the hashes of the clauses used are unit propagation hints
-/
namespace Varisat.Solver

variable {α : Type} [LinearOrder α] {pres : Nat → Prop} {C : Cl} {p : Pt}

/-- Flagged variables are those of base literals, of literals in the stack, and of the literals `us`
whose reasons were used. -/
structure HInv (C : Cl) (p : Pt) (base stack : List Lit) (flags : Nat → Bool) (us : List Lit) : Prop where
  flag : ∀ v, flags v = true → p.level v < p.curLevel ∧
    ∃ k m, p.At k m ∧ m.var = v ∧ (m.neg ∈ base ∨ m ∈ stack ∨ m ∈ us)
  onBase : ∀ l ∈ base, flags l.var = true
  onStack : ∀ m ∈ stack, flags m.var = true ∧ p.reason m.var ≠ .unit ∧ (∃ k, p.At k m) ∧ m.neg ∉ base
  snd : stack.Nodup
  onUs : ∀ m ∈ us, flags m.var = true ∧ p.reason m.var ≠ .unit ∧ (∃ k, p.At k m) ∧ m.neg ∉ base ∧ m ∉ stack
  und : us.Nodup

theorem put_mono {flags : Nat → Bool} {w v : Nat} (h : flags v = true) : put flags w true v = true := by
  unfold put; split
  · rfl
  · exact h

theorem dfsLits_hints (hp : p.Ok) {base us : List Lit} {levels : BitVec 64} :
    ∀ (ls : List Lit) (flags : Nat → Bool) (tc : List Nat) (stack : List Lit)
      (flags' : Nat → Bool) (tc' : List Nat) (stack' : List Lit) (cur : Lit),
      (∀ l ∈ ls, p.level l.var < p.curLevel ∧ ∃ k, p.At k l.neg) →
      HInv C p base (cur :: stack) flags us →
      An.dfsLits p levels ls (flags, tc, stack) = some (flags', tc', stack') →
      HInv C p base (cur :: stack') flags' us ∧ (∀ v, flags v = true → flags' v = true) ∧
      (∀ l ∈ ls, p.level l.var = 0 ∨ flags' l.var = true)
  | [], flags, tc, stack, flags', tc', stack', cur, _, h, he => by
    simp only [An.dfsLits, Option.some.injEq, Prod.mk.injEq] at he
    obtain ⟨rfl, rfl, rfl⟩ := he
    exact ⟨h, fun _ h => h, by simp⟩
  | l :: ls, flags, tc, stack, flags', tc', stack', cur, hls, h, he => by
    rw [An.dfsLits] at he
    split at he
    · rename_i hc
      split at he
      · simp at he
      · rename_i hu
        simp only [not_or] at hu
        simp only at hc
        obtain ⟨hlv, k, hk⟩ := hls l (by simp)
        have hnf : ∀ m : Lit, flags m.var = true → m ≠ l.neg := by
          rintro m hm rfl
          rw [Lit.var_neg, hc.1] at hm; cases hm
        have hM : HInv C p base (cur :: l.neg :: stack) (put flags l.var true) us := by
          refine ⟨?_, fun m hm => put_mono (h.onBase m hm), ?_, ?_, ?_, h.und⟩
          · intro v hv
            by_cases hvl : v = l.var
            · exact ⟨by rw [hvl]; exact hlv, k, l.neg, hk, by simp [hvl], .inr (.inl (by simp))⟩
            · rw [put_ne _ _ hvl] at hv
              obtain ⟨h0, j, m, h1, h2, h3⟩ := h.flag v hv
              refine ⟨h0, j, m, h1, h2, h3.imp id (Or.imp ?_ id)⟩
              intro h3
              rcases List.mem_cons.1 h3 with rfl | h3
              · simp
              · simp [h3]
          · intro m hm
            rcases List.mem_cons.1 hm with rfl | hm
            · have := h.onStack m (by simp)
              exact ⟨put_mono this.1, this.2⟩
            · rcases List.mem_cons.1 hm with rfl | hm
              · refine ⟨by simp, by simpa using hu.1, ⟨k, hk⟩, ?_⟩
                intro hb
                have := h.onBase _ hb
                rw [Lit.neg_neg, hc.1] at this; cases this
              · have := h.onStack m (by simp [hm])
                exact ⟨put_mono this.1, this.2⟩
          · have := h.snd
            rw [List.nodup_cons] at this ⊢
            rw [List.nodup_cons, List.mem_cons, not_or]
            refine ⟨⟨hnf _ (h.onStack cur (by simp)).1, this.1⟩, ?_, this.2⟩
            intro hm
            exact hnf _ (h.onStack _ (by simp [hm])).1 rfl
          · intro m hm
            obtain ⟨h1, h2, h3, h4, h5⟩ := h.onUs m hm
            refine ⟨put_mono h1, h2, h3, h4, ?_⟩
            simp only [List.mem_cons, not_or] at h5 ⊢
            exact ⟨h5.1, hnf m h1, h5.2⟩
        obtain ⟨k1, k2, k3⟩ := dfsLits_hints hp ls _ _ _ flags' tc' stack' cur
          (fun m hm => hls m (by simp [hm])) hM he
        refine ⟨k1, fun v hv => k2 v (put_mono hv), ?_⟩
        intro m hm
        rcases List.mem_cons.1 hm with rfl | hm
        · exact .inr (k2 _ (by simp))
        · exact k3 m hm
    · rename_i hc
      obtain ⟨k1, k2, k3⟩ := dfsLits_hints hp ls _ _ _ flags' tc' stack' cur
          (fun m hm => hls m (by simp [hm])) h he
      refine ⟨k1, k2, ?_⟩
      intro m hm
      rcases List.mem_cons.1 hm with rfl | hm
      · by_cases h0 : p.level m.var = 0
        · exact .inl h0
        · right
          apply k2
          by_contra hne
          exact hc ⟨by simpa using hne, by omega⟩
      · exact k3 m hm

/-- What is recorded for a literal whose reason was used during minimisation. -/
def entry (p : Pt) (lits : Nat → List Lit) (m : Lit) : Option Nat × Nat := ((p.node m.var).depth, hint p lits m)

/-- All literals of the reasons of `us` are flagged or of level 0. -/
def Closed (C : Cl) (p : Pt) (flags : Nat → Bool) (us : List Lit) : Prop :=
  ∀ m ∈ us, ∀ l ∈ (p.reason m.var).lits C.lits, p.level l.var = 0 ∨ flags l.var = true

theorem Closed.mono {f g : Nat → Bool} {us : List Lit} (h : Closed C p f us) (hfg : ∀ v, f v = true → g v = true) :
    Closed C p g us := fun m hm l hl => (h m hm l hl).imp id (hfg _)

theorem dfs_hints (hc : CInv pres C p) {base : List Lit} {levels : BitVec 64} :
    ∀ (fuel : Nat) (stack : List Lit) (flags : Nat → Bool) (tc : List Nat) (us : List Lit)
      (x : (Nat → Bool) × List Nat × List (Option Nat × Nat)),
      HInv C p base stack flags us → Closed C p flags us →
      An.dfs p C.lits levels fuel stack flags tc (us.map (entry p C.lits)) = some (some x) →
      ∃ us', HInv C p base [] x.1 us' ∧ Closed C p x.1 us' ∧ x.2.2 = us'.map (entry p C.lits) ∧
        (∀ v, flags v = true → x.1 v = true)
  | _, [], flags, tc, us, x, h, hcl, he => by
    unfold An.dfs at he
    simp only [Option.some.injEq] at he
    subst he
    exact ⟨us, h, hcl, rfl, fun _ h => h⟩
  | 0, m :: stack, flags, tc, us, x, h, _, he => by simp [An.dfs] at he
  | fuel + 1, lit :: stack, flags, tc, us, x, h, hcl, he => by
    rw [An.dfs] at he
    obtain ⟨hfl, hru, ⟨k, hk⟩, hlb⟩ := h.onStack lit (by simp)
    cases hd : An.dfsLits p levels ((p.reason lit.var).lits C.lits) (flags, tc, stack) with
    | none => simp [hd] at he
    | some r =>
      obtain ⟨flags', tc', stack'⟩ := r
      simp only [hd, if_neg hru] at he
      have hlv := (h.flag _ hfl).1
      obtain ⟨k1, k2, k3⟩ := dfsLits_hints (C := C) (us := us) (base := base) hc.tr _ flags tc stack flags' tc' stack' lit
        (fun l hl => by
          obtain ⟨j, hjk, hj⟩ := reason_at hc hk hru l hl
          have := hc.tr.level_mono hj hk (by omega)
          rw [Lit.var_neg] at this
          exact ⟨by omega, j, hj⟩) h hd
      have hM : HInv C p base stack' flags' (us ++ [lit]) := by
        refine ⟨?_, k1.onBase, fun m hm => k1.onStack m (by simp [hm]), (List.nodup_cons.1 k1.snd).2, ?_, ?_⟩
        · intro v hv
          obtain ⟨h0, j, m, h1, h2, h3⟩ := k1.flag v hv
          refine ⟨h0, j, m, h1, h2, ?_⟩
          rcases h3 with h3 | h3 | h3
          · exact .inl h3
          · rcases List.mem_cons.1 h3 with rfl | h3
            · exact .inr (.inr (by simp))
            · exact .inr (.inl h3)
          · exact .inr (.inr (by simp [h3]))
        · intro m hm
          rw [List.mem_append, List.mem_singleton] at hm
          rcases hm with hm | rfl
          · obtain ⟨h1, h2, h3, h4, h5⟩ := k1.onUs m hm
            exact ⟨h1, h2, h3, h4, fun hm => h5 (by simp [hm])⟩
          · exact ⟨k2 _ hfl, hru, ⟨k, hk⟩, hlb, (List.nodup_cons.1 k1.snd).1⟩
        · rw [List.nodup_append]
          refine ⟨k1.und, by simp, ?_⟩
          intro m hm n hn hmn
          rw [List.mem_singleton] at hn
          subst hn; subst hmn
          exact (k1.onUs _ hm).2.2.2.2 (by simp)
      have hcl' : Closed C p flags' (us ++ [lit]) := by
        intro m hm l hl
        rw [List.mem_append, List.mem_singleton] at hm
        rcases hm with hm | rfl
        · exact hcl.mono k2 m hm l hl
        · exact k3 l hl
      have he' : An.dfs p C.lits levels fuel stack' flags' tc' ((us ++ [lit]).map (entry p C.lits)) = some (some x) := by
        rw [List.map_append]; exact he
      obtain ⟨us', h1, h2, h3, h4⟩ := dfs_hints hc fuel stack' flags' tc' _ x hM hcl' he'
      exact ⟨us', h1, h2, h3, fun v hv => h4 v (k2 v hv)⟩

theorem minLoop_hints (hc : CInv pres C p) {levels : BitVec 64} {fuel : Nat} :
    ∀ (ls : List Lit) (a : An α) (kept us : List Lit) (a' : An α) (ls' : List Lit),
      HInv C p (kept ++ ls) [] a.flags us → Closed C p a.flags us → a.unordered = us.map (entry p C.lits) →
      (∀ l ∈ ls, ∃ k, p.At k l.neg) → (kept ++ ls).Nodup →
      An.minLoop p C.lits levels fuel ls a = some (a', ls') →
      ∃ us', HInv C p (kept ++ ls') [] a'.flags us' ∧ Closed C p a'.flags us' ∧
        a'.unordered = us'.map (entry p C.lits) ∧ a'.hashes = a.hashes ∧
        (∀ v, a.flags v = true → a'.flags v = true)
  | [], a, kept, us, a', ls', h, hcl, hu, _, _, he => by
    simp only [An.minLoop, Option.some.injEq, Prod.mk.injEq] at he
    obtain ⟨rfl, rfl⟩ := he
    exact ⟨us, h, hcl, hu, rfl, fun _ h => h⟩
  | l :: ls, a, kept, us, a', ls', h, hcl, hu, hls, hnd, he => by
    rw [An.minLoop] at he
    obtain ⟨k, hk⟩ := hls l (by simp)
    have keep : (An.minLoop p C.lits levels fuel ls a).map (fun r => (r.1, l :: r.2)) = some (a', ls') →
        ∃ us', HInv C p (kept ++ ls') [] a'.flags us' ∧ Closed C p a'.flags us' ∧
        a'.unordered = us'.map (entry p C.lits) ∧ a'.hashes = a.hashes ∧
        (∀ v, a.flags v = true → a'.flags v = true) := by
      intro he
      rw [Option.map_eq_some_iff] at he
      obtain ⟨⟨a1, ls1⟩, h1, h2⟩ := he
      simp only [Prod.mk.injEq] at h2
      obtain ⟨rfl, rfl⟩ := h2
      obtain ⟨us', g1, g2⟩ := minLoop_hints hc ls a (kept ++ [l]) us a1 ls1 (by simpa using h) hcl hu
        (fun m hm => hls m (by simp [hm])) (by simpa using hnd) h1
      exact ⟨us', by simpa using g1, g2⟩
    split at he
    · exact keep he
    · rename_i hru
      have hnd' : l ∉ kept ++ ls ∧ (kept ++ ls).Nodup := by
        have := (List.perm_middle (a := l) (l₁ := kept) (l₂ := ls)).nodup_iff.1 hnd
        exact List.nodup_cons.1 this
      have hM : HInv C p (kept ++ ls) [l.neg] a.flags us := by
        refine ⟨?_, ?_, ?_, by simp, ?_, h.und⟩
        · intro v hv
          obtain ⟨h0, j, m, h1, h2, h3⟩ := h.flag v hv
          refine ⟨h0, j, m, h1, h2, ?_⟩
          rcases h3 with h3 | h3 | h3
          · rw [List.mem_append, List.mem_cons] at h3
            rcases h3 with h3 | h3 | h3
            · exact .inl (by simp [h3])
            · right; left; rw [← h3]; simp
            · exact .inl (by simp [h3])
          · simp at h3
          · exact .inr (.inr h3)
        · intro m hm
          refine h.onBase m ?_
          simp only [List.mem_append, List.mem_cons] at hm ⊢
          rcases hm with hm | hm
          · exact .inl hm
          · exact .inr (.inr hm)
        · intro m hm
          rw [List.mem_singleton] at hm
          subst hm
          exact ⟨by simpa using h.onBase l (by simp), by simpa using hru, ⟨k, hk⟩, by simpa using hnd'.1⟩
        · intro m hm
          obtain ⟨h1, h2, h3, h4, _⟩ := h.onUs m hm
          refine ⟨h1, h2, h3, ?_, ?_⟩
          · intro hm'
            apply h4
            simp only [List.mem_append, List.mem_cons] at hm' ⊢
            rcases hm' with hm' | hm'
            · exact .inl hm'
            · exact .inr (.inr hm')
          · rw [List.mem_singleton]
            rintro rfl
            exact h4 (by simp)
      rw [hu] at he
      cases hd : An.dfs p C.lits levels fuel [l.neg] a.flags a.toClean (us.map (entry p C.lits)) with
      | none => rw [hd] at he; cases he
      | some r =>
        rw [hd] at he
        cases r with
        | none => exact keep he
        | some x =>
          simp only at he
          obtain ⟨us1, g1, g2, g3, g4⟩ := dfs_hints hc fuel _ _ _ us x hM hcl hd
          obtain ⟨us', f1, f2, f3, f4, f5⟩ := minLoop_hints hc ls _ kept us1 a' ls' g1 g2 g3
            (fun m hm => hls m (by simp [hm])) hnd'.2 he
          exact ⟨us', f1, f2, f3, f4, fun v hv => f5 v (g4 v hv)⟩

theorem minimize_hints (hc : CInv pres C p) {fuel : Nat} {v0 : Vsids α}
    {a : An α} {u : Lit} {rest : List Lit} (h : Walked C p v0 a u rest) (hu : a.unordered = []) {a' : An α}
    (he : An.minimize p C.lits fuel a = some a') :
    ∃ rest' us, a'.clause = u :: rest' ∧ HInv C p rest' [] a'.flags us ∧ Closed C p a'.flags us ∧
      a'.unordered = us.map (entry p C.lits) ∧ a'.hashes = a.hashes ∧
      ∀ l ∈ rest, a'.flags l.var = true := by
  unfold An.minimize at he
  rw [h.eq] at he
  simp only at he
  rw [Option.map_eq_some_iff] at he
  obtain ⟨⟨a1, ls1⟩, h1, h2⟩ := he
  subst h2
  have hrn : rest.Nodup := (List.pairwise_map.1 (List.nodup_iff_pairwise_ne.1 h.nodup)).imp (fun h he => h (congrArg Lit.var he))
  suffices hH : HInv C p ([] ++ rest) [] a.flags [] by
    obtain ⟨us', f1, f2, f3, f4, f5⟩ := minLoop_hints hc rest a [] [] a1 ls1 hH (by simp [Closed]) (by simp [hu])
      (fun l hl => by obtain ⟨k, hk, _⟩ := h.lit l hl; exact ⟨k, hk⟩) (by simpa using hrn) h1
    exact ⟨ls1, us', rfl, f1, f2, f3, f4, fun l hl => f5 _ ((h.flags _).2 (List.mem_map.2 ⟨l, hl, rfl⟩))⟩
  refine ⟨?_, ?_, by simp, by simp, by simp, by simp⟩
  · intro v hv
    obtain ⟨l, hl, rfl⟩ := List.mem_map.1 ((h.flags v).1 hv)
    obtain ⟨k, hk, h3, h4⟩ := h.lit l hl
    exact ⟨h4, k, l.neg, hk, by simp, .inl (by simpa using hl)⟩
  · intro l hl
    exact (h.flags _).2 (List.mem_map.2 ⟨l, by simpa using hl, rfl⟩)

/-! ## Order -/

/-- `m` comes after `n` in the trail. -/
def Later (p : Pt) (m n : Lit) : Prop := ∀ j k, p.At j m → p.At k n → k < j

theorem perm_map_inv {β γ : Type} (f : β → γ) {l l' : List γ} (h : l.Perm l') :
    ∀ us : List β, l' = us.map f → ∃ us' : List β, us'.Perm us ∧ l = us'.map f := by
  induction h with
  | nil =>
    intro us hu
    cases us with
    | nil => exact ⟨[], .refl _, rfl⟩
    | cons => simp at hu
  | cons x _ ih =>
    intro us hu
    cases us with
    | nil => simp at hu
    | cons y ys =>
      simp only [List.map_cons, List.cons.injEq] at hu
      obtain ⟨rfl, hu⟩ := hu
      obtain ⟨us', h1, h2⟩ := ih ys hu
      exact ⟨y :: us', h1.cons y, by rw [h2]; rfl⟩
  | swap x y l =>
    intro us hu
    match us, hu with
    | a :: b :: t, hu =>
      simp only [List.map_cons, List.cons.injEq] at hu
      obtain ⟨rfl, rfl, rfl⟩ := hu
      exact ⟨b :: a :: t, .swap .., rfl⟩
  | trans _ _ ih1 ih2 =>
    intro us hu
    obtain ⟨us', h1, h2⟩ := ih2 us hu
    obtain ⟨us'', h3, h4⟩ := ih1 us' h2
    exact ⟨us'', h3.trans h1, h4⟩

theorem dedupDepth_id : ∀ {l : List (Option Nat × Nat)}, (l.map Prod.fst).Nodup → An.dedupDepth l = l
  | [], _ => by simp [An.dedupDepth]
  | [x], _ => by simp [An.dedupDepth]
  | x :: y :: rest, h => by
    rw [An.dedupDepth]
    simp only [List.map_cons, List.nodup_cons, List.mem_cons, not_or] at h
    rw [if_neg h.1.1, dedupDepth_id (by simpa using h.2)]

/-- The collected reasons, sorted. -/
theorem sorted_hints (hp : p.Ok) (hlen : p.trail.length < 2 ^ 32) {us : List Lit}
    (hus : ∀ m ∈ us, ∃ k, p.At k m) (hnd : us.Nodup) (lits : Nat → List Lit) :
    ∃ us' : List Lit, us'.Perm us ∧ us'.Pairwise (Later p) ∧
      An.dedupDepth ((us.map (entry p lits)).mergeSort
        (fun x y => decide (An.depthKey x.1 ≤ An.depthKey y.1))) = us'.map (entry p lits) := by
  obtain ⟨us', h1, h2⟩ := perm_map_inv (entry p lits)
    (List.mergeSort_perm (us.map (entry p lits)) (fun x y => decide (An.depthKey x.1 ≤ An.depthKey y.1))) us rfl
  have hs := List.pairwise_mergeSort (le := fun x y : Option Nat × Nat => decide (An.depthKey x.1 ≤ An.depthKey y.1))
    (by intro a b c; simp only [decide_eq_true_eq]; omega)
    (by intro a b; simp only [Bool.or_eq_true, decide_eq_true_eq]; omega) (us.map (entry p lits))
  rw [h2, List.pairwise_map] at hs
  have hnd' := h1.nodup_iff.2 hnd
  have hat : ∀ m ∈ us', ∃ k, p.At k m := fun m hm => hus m (h1.mem_iff.1 hm)
  have hl : us'.Pairwise (Later p) := by
    have := hs.and hnd'
    refine this.imp_of_mem ?_
    intro m n hm hn ⟨h3, h4⟩ j k hj hk
    simp only [decide_eq_true_eq, entry, hp.depth j m hj, hp.depth k n hk, An.depthKey, Option.getD_some] at h3
    have l1 := hj.lt
    have l2 := hk.lt
    rcases Nat.lt_trichotomy k j with h | h | h
    · exact h
    · subst h
      have := hj.symm.trans hk
      simp only [Option.some.injEq] at this
      exact absurd this h4
    · omega
  refine ⟨us', h1, hl, ?_⟩
  rw [h2]
  apply dedupDepth_id
  rw [List.map_map]
  refine (List.pairwise_map.2 ?_ : List.Nodup _)
  refine hl.imp_of_mem ?_
  intro m n hm hn h he
  obtain ⟨j, hj⟩ := hat m hm
  obtain ⟨k, hk⟩ := hat n hn
  have := h j k hj hk
  simp only [Function.comp_apply, entry, hp.depth j m hj, hp.depth k n hk, Option.some.injEq] at he
  omega

/-! ## The chain -/

/-- The clause is a binary or long clause. -/
def Cl.In (C : Cl) (d : List Lit) : Prop :=
  (∃ l m, m ∈ C.bin l ∧ d = [l.neg, m]) ∨ ∃ c, C.live c ∧ d = C.lits c

/-- The clause that is the reason of a literal. -/
def reasonClause (p : Pt) (lits : Nat → List Lit) (m : Lit) : List Lit :=
  match p.reason m.var with
  | .unit => []
  | .binary l => [l, m]
  | .long c => lits c

theorem xor_foldl (f : Lit → Nat) : ∀ (ls : List Lit) (a b : Nat),
    ls.foldl (fun h l => h ^^^ f l) (a ^^^ b) = ls.foldl (fun h l => h ^^^ f l) a ^^^ b
  | [], _, _ => rfl
  | l :: ls, a, b => by
    rw [List.foldl_cons, List.foldl_cons, ← xor_foldl f ls]
    congr 1
    rw [Nat.xor_assoc, Nat.xor_comm b, ← Nat.xor_assoc]

theorem clauseHash_cons (l : Lit) (ls : List Lit) : clauseHash (l :: ls) = clauseHash ls ^^^ litHash l := by
  unfold clauseHash
  rw [List.foldl_cons, xor_foldl]

theorem reasonClause_spec (hc : CInv pres C p) {k : Nat} {m : Lit} (hk : p.At k m) (hr : p.reason m.var ≠ .unit) :
    C.In (reasonClause p C.lits m) ∧ clauseHash (reasonClause p C.lits m) = hint p C.lits m ∧
    ∀ x, x ∈ reasonClause p C.lits m ↔ x = m ∨ x ∈ (p.reason m.var).lits C.lits := by
  have h := hc.rs k m hk
  unfold ReasonAt at h
  unfold reasonClause hint
  cases hre : p.reason m.var with
  | unit => exact absurd hre hr
  | binary l =>
    simp only [hre] at h
    refine ⟨.inl ⟨l.neg, m, h.2, by simp⟩, ?_, ?_⟩
    · simp only [Reason.lits]
      rw [clauseHash_cons, clauseHash_cons, clauseHash_cons, Nat.xor_assoc, Nat.xor_assoc, Nat.xor_comm (litHash m)]
    · intro x
      simp only [Reason.lits, List.mem_cons, List.not_mem_nil, or_false]
      exact or_comm
  | long c =>
    simp only [hre] at h
    obtain ⟨hl, rest, hcl, _⟩ := h
    refine ⟨.inr ⟨c, hl, rfl⟩, ?_, ?_⟩
    · simp only [Reason.lits, hcl, List.tail_cons, clauseHash_cons]
    · intro x
      simp only [Reason.lits, hcl, List.tail_cons, List.mem_cons]

theorem unitChain_cons {known : Lit → Prop} {c : List Lit} {cs : List (List Lit)} {l : Lit} (hl : l ∈ c)
    (h : ∀ m ∈ c, m = l ∨ known m.neg) (hcs : UnitChain Lit.neg (fun x => x = l ∨ known x) cs) :
    UnitChain Lit.neg known (c :: cs) := by
  cases cs with
  | nil => exact hcs.elim
  | cons d cs => exact ⟨l, hl, h, hcs⟩

theorem _root_.Varisat.UnitChain.mono {neg : Lit → Lit} : ∀ {cs : List (List Lit)} {k k' : Lit → Prop}, UnitChain neg k cs →
    (∀ x, k x → k' x) → UnitChain neg k' cs
  | [], _, _, h, _ => h
  | [_], _, _, h, hk => fun l hl => hk _ (h l hl)
  | _ :: _ :: _, _, _, h, hk => by
    obtain ⟨l, h1, h2, h3⟩ := h
    exact ⟨l, h1, fun m hm => (h2 m hm).imp id (hk _), h3.mono (fun x => Or.imp id (hk x))⟩

/-- Reasons in the order of the trail, and then a clause all of whose literals are false. -/
theorem chain_of (hc : CInv pres C p) {c : List Lit} : ∀ (ks : List Lit) (known : Lit → Prop),
    ks.Pairwise (fun m n => Later p n m) →
    (∀ m ∈ ks, (∃ k, p.At k m) ∧ p.reason m.var ≠ .unit ∧
      ∀ l ∈ (p.reason m.var).lits C.lits, known l.neg ∨ l.neg ∈ ks) →
    (∀ l ∈ c, known l.neg ∨ l.neg ∈ ks) →
    UnitChain Lit.neg known (ks.map (reasonClause p C.lits) ++ [c])
  | [], known, _, _, h => by
    intro l hl
    simpa using h l hl
  | m :: ks, known, hp, hks, h => by
    obtain ⟨⟨k, hk⟩, hr, hl⟩ := hks m (by simp)
    obtain ⟨_, _, s3⟩ := reasonClause_spec hc hk hr
    rw [List.pairwise_cons] at hp
    rw [List.map_cons, List.cons_append]
    refine unitChain_cons ((s3 m).2 (.inl rfl)) ?_ (chain_of hc ks _ hp.2 ?_ ?_)
    · intro x hx
      rcases (s3 x).1 hx with rfl | hx
      · exact .inl rfl
      · right
        rcases hl x hx with h1 | h1
        · exact h1
        · exfalso
          obtain ⟨j, hjk, hj⟩ := reason_at hc hk hr x hx
          rcases List.mem_cons.1 h1 with h1 | h1
          · rw [h1] at hj
            have := (hc.tr.uniq hj hk rfl).1
            omega
          · have := hp.1 _ h1 j k hj hk
            omega
    · intro n hn
      obtain ⟨g1, g2, g3⟩ := hks n (by simp [hn])
      refine ⟨g1, g2, fun l hl => ?_⟩
      rcases g3 l hl with g | g
      · exact .inl (.inr g)
      · rcases List.mem_cons.1 g with g | g
        · exact .inl (.inl g)
        · exact .inr g
    · intro l hl
      rcases h l hl with g | g
      · exact .inl (.inr g)
      · rcases List.mem_cons.1 g with g | g
        · exact .inl (.inl g)
        · exact .inr g

theorem Conflict.in {c : Conflict} (h : c.IsIn C.bin C.lits C.live) :
    ∃ d, C.In d ∧ clauseHash d = clauseHash (c.lits C.lits) ∧ ∀ x, x ∈ d ↔ x ∈ c.lits C.lits := by
  cases c with
  | binary a b =>
    refine ⟨[b, a], .inl ⟨_, _, h, by simp⟩, ?_, ?_⟩
    · simp only [Conflict.lits, clauseHash_cons]
      rw [Nat.xor_assoc, Nat.xor_assoc, Nat.xor_comm (litHash a)]
    · intro x
      simp only [Conflict.lits, List.mem_cons, List.not_mem_nil, or_false]
      exact or_comm
  | long c => exact ⟨_, .inr ⟨c, h, rfl⟩, rfl, fun _ => Iff.rfl⟩

theorem root_of_level (hp : p.Ok) {j : Nat} {l : Lit} (hj : p.At j l.neg) (h : p.level l.var = 0) : p.Root l.neg := by
  refine ⟨hp.at_true hj, .inl ⟨j, hj, ?_⟩⟩
  rw [← hp.level j _ hj]; simpa using h

/-- The hints of a learned clause. -/
structure HRes (C : Cl) (p : Pt) (L : Learned α) (hs : List (List Lit)) : Prop where
  eq : L.hashes = hs.map clauseHash
  inDb : ∀ d ∈ hs, C.In d
  le : hs.length ≤ p.trail.length + 1
  chain : UnitChain Lit.neg (fun x => x.neg ∈ L.clause ∨ p.Root x) hs

theorem analyze_hints {e : Env α} (hc : CInv pres C p) {c : Conflict} (hcf : CRes pres C p c)
    {flags : Nat → Bool} (hflags : ∀ v, flags v = false) {v0 : Vsids α}
    (hv0 : Vsids.WF v0) {fuel : Nat} (hlen : p.trail.length < 2 ^ 32) {L : Learned α}
    (he : analyze e p C.lits flags v0 fuel c = .ok L) : ∃ hs, HRes C p L hs := by
  unfold analyze at he
  simp only at he
  obtain ⟨d, d1, d2, d3⟩ := Conflict.in hcf.isIn
  have hcat : ∀ l ∈ c.lits C.lits, ∃ j, p.At j l.neg := fun l hl =>
    hc.tr.at_of_false (hcf.att l hl).2 (hcf.false_ l hl)
  split at he
  · rename_i h0
    cases he
    refine ⟨[d], by simp [d2], by simpa using d1, by simp, ?_⟩
    intro l hl
    right
    obtain ⟨j, hj⟩ := hcat l ((d3 l).1 hl)
    refine root_of_level hc.tr hj ?_
    have := hc.tr.level_le hj
    rw [Lit.var_neg] at this
    omega
  · rename_i h0
    obtain ⟨a1, u, rest, h1, hw, ws, hend⟩ := walk_full (e := e) hc hcf (by omega) hflags hv0
    unfold walkStart at h1
    simp only at h1
    rw [h1] at he
    simp only at he
    cases hm : An.minimize p C.lits fuel a1 with
    | none => rw [hm] at he; cases he
    | some a2 =>
      rw [hm] at he
      simp only [Except.ok.injEq] at he
      obtain ⟨rest', us, m1, m2, m3, m4, m5, m6⟩ := minimize_hints hc hw hend.unord hm
      obtain ⟨us', s1, s2, s3⟩ := sorted_hints hc.tr hlen (fun m hm => (m2.onUs m hm).2.2.1) m2.und C.lits
      have hsec : ∀ x, x ∈ L.clause ↔ x ∈ u :: rest' := by
        rw [← he, m1]
        intro x
        cases rest' with
        | nil => exact Iff.rfl
        | cons l1 ls =>
          obtain ⟨_, p2, _⟩ := pickSecond_spec p l1 ls
          exact (List.Perm.cons u p2).mem_iff
      have hhash : L.hashes = (us'.reverse ++ ws.reverse).map (hint p C.lits) ++ [clauseHash (c.lits C.lits)] := by
        rw [← he]
        show An.orderHashes a2 = _
        unfold An.orderHashes
        simp only
        rw [m4, s3, m5, hend.hashes, List.map_map]
        simp only [List.reverse_append, List.reverse_cons, List.map_append, List.map_reverse, List.append_assoc]
        rfl
      have hk : ∀ (l : Lit) (j : Nat), p.At j l.neg → (l.neg ∈ ws ∨ p.level l.var = 0 ∨ l ∈ a1.clause) →
          (l.neg.neg ∈ L.clause ∨ p.Root l.neg) ∨ l.neg ∈ us'.reverse ++ ws.reverse := by
        intro l j hj h
        have flagged : a2.flags l.var = true → (l.neg.neg ∈ L.clause ∨ p.Root l.neg) ∨ l.neg ∈ us'.reverse ++ ws.reverse := by
          intro hf
          obtain ⟨_, k, m, g1, g2, g3⟩ := m2.flag _ hf
          obtain ⟨rfl, rfl⟩ := hc.tr.uniq g1 hj (by simpa using g2)
          rcases g3 with g3 | g3 | g3
          · exact .inl (.inl ((hsec _).2 (List.mem_cons_of_mem _ g3)))
          · simp at g3
          · right; simp [s1.mem_iff.2 g3]
        rcases h with h | h | h
        · right; simp [h]
        · exact .inl (.inr (root_of_level hc.tr hj h))
        · rw [hw.eq] at h
          rcases List.mem_cons.1 h with rfl | h
          · exact .inl (.inl ((hsec _).2 (by simp)))
          · exact flagged (m6 l h)
      have hk2 : ∀ (l : Lit) (j : Nat), p.At j l.neg → (p.level l.var = 0 ∨ a2.flags l.var = true) →
          (l.neg.neg ∈ L.clause ∨ p.Root l.neg) ∨ l.neg ∈ us'.reverse ++ ws.reverse := by
        intro l j hj h
        rcases h with h | hf
        · exact .inl (.inr (root_of_level hc.tr hj h))
        · obtain ⟨_, k, m, g1, g2, g3⟩ := m2.flag _ hf
          obtain ⟨rfl, rfl⟩ := hc.tr.uniq g1 hj (by simpa using g2)
          rcases g3 with g3 | g3 | g3
          · exact .inl (.inl ((hsec _).2 (List.mem_cons_of_mem _ g3)))
          · simp at g3
          · right; simp [s1.mem_iff.2 g3]
      have hspec : ∀ m ∈ us'.reverse ++ ws.reverse, (∃ k, p.At k m) ∧ p.reason m.var ≠ .unit := by
        intro m hm
        rw [List.mem_append, List.mem_reverse, List.mem_reverse] at hm
        rcases hm with hm | hm
        · obtain ⟨_, g2, g3, _⟩ := m2.onUs m (s1.mem_iff.1 hm)
          exact ⟨g3, g2⟩
        · obtain ⟨k, g1, _, g2⟩ := hend.pos m hm
          exact ⟨⟨k, g1⟩, g2⟩
      have hpw : (us'.reverse ++ ws.reverse).Pairwise (fun m n => Later p n m) := by
        rw [List.pairwise_append, List.pairwise_reverse, List.pairwise_reverse]
        refine ⟨s2, hend.desc, ?_⟩
        intro m hm n hn j k hj hk
        rw [List.mem_reverse] at hm hn
        obtain ⟨g1, _⟩ := m2.onUs m (s1.mem_iff.1 hm)
        have g2 := (m2.flag _ g1).1
        obtain ⟨_, _, g3, _⟩ := hend.pos n hn
        by_contra hlt
        have := hc.tr.level_mono hj hk (by omega)
        omega
      refine ⟨(us'.reverse ++ ws.reverse).map (reasonClause p C.lits) ++ [d], ?_, ?_, ?_, ?_⟩
      · rw [hhash, List.map_append (f := clauseHash), List.map_map]
        congr 1
        · apply List.map_congr_left
          intro m hm
          obtain ⟨⟨k, g1⟩, g2⟩ := hspec m hm
          exact (reasonClause_spec hc g1 g2).2.1.symm
        · simp [d2]
      · intro x hx
        rw [List.mem_append, List.mem_singleton] at hx
        rcases hx with hx | rfl
        · obtain ⟨m, hm, rfl⟩ := List.mem_map.1 hx
          obtain ⟨⟨k, g1⟩, g2⟩ := hspec m hm
          exact (reasonClause_spec hc g1 g2).1
        · exact d1
      · have hnd : (us'.reverse ++ ws.reverse).Nodup := by
          refine (List.Pairwise.and_mem.1 hpw).imp ?_
          rintro m _ ⟨hm, -, h⟩ rfl
          obtain ⟨⟨k, g1⟩, -⟩ := hspec m hm
          exact absurd (h k k g1 g1) (Nat.lt_irrefl _)
        have := (List.subperm_of_subset hnd (fun m hm => by
          obtain ⟨⟨k, g1⟩, -⟩ := hspec m hm
          exact g1.mem : _ ⊆ p.trail)).length_le
        rw [List.length_append, List.length_map]
        simp only [List.length_singleton]
        omega
      · refine chain_of hc _ _ ?_ ?_ ?_
        · exact hpw
        · intro m hm
          obtain ⟨⟨k, g1⟩, g2⟩ := hspec m hm
          refine ⟨⟨k, g1⟩, g2, fun l hl => ?_⟩
          obtain ⟨j, _, hj⟩ := reason_at hc g1 g2 l hl
          rw [List.mem_append, List.mem_reverse, List.mem_reverse] at hm
          rcases hm with hm | hm
          · exact hk2 l j hj (m3 m (s1.mem_iff.1 hm) l hl)
          · exact hk l j hj (hend.res m hm l hl)
        · intro l hl
          obtain ⟨j, hj⟩ := hcat l ((d3 l).1 hl)
          exact hk l j hj (hend.cl l ((d3 l).1 hl))

end Varisat.Solver
