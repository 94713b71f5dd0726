import Verif.Proof.Solver.SimSearch
/-!
# The analysis of failed assumptions, as the checker sees it
-/
namespace Varisat.Solver

open Api (Abs)
open Checker (View LitsOk SamplingMode hashOf)

variable {α : Type} [LinearOrder α]
variable {a : Option Abs} {x : Vars} {p q : Pt} {st : Bool → List Lit → Nat} {V : View} {l m : Lit} {s s' : St α} {e : Env α}
variable {F : List (List Lit)} {A : List Lit} {ids : Nat → Nat} {bin : Lit → List Lit} {db : Db α}

/-- What the loop over the trail collects: `ws` are the literals whose reasons are cited. -/
structure FailHints (C : Cl) (p : Pt) (k : Nat) (f g : St.Fail) (ws : List Lit) : Prop where
  hashes : g.hashes = f.hashes ++ ws.map (hint p C.lits)
  sub : ∀ l ∈ f.core, l ∈ g.core
  cited : ∀ m ∈ ws, (∃ j, j < k ∧ p.At j m) ∧ p.reason m.var ≠ .unit ∧
    ∀ l ∈ (p.reason m.var).lits C.lits, l.neg ∈ g.core ∨ p.Root l.neg ∨ l.neg ∈ ws
  later : ws.Pairwise (Later p)
  flagged : ∀ l ∈ p.trail.take k, f.flags l.var = true → l ∈ g.core ∨ p.Root l ∨ l ∈ ws

theorem failLoop_hints {pres : Nat → Prop} {C : Cl} (h : CInv pres C p) : ∀ (k : Nat), k ≤ p.trail.length →
    ∀ (f : St.Fail), f.count = flagged f.flags (p.trail.take k).reverse →
    (∀ v, f.flags v = true → ∃ l ∈ (p.trail.take k).reverse, l.var = v) →
    ∃ ws, FailHints C p k f (St.failLoop p C.lits (p.trail.take k).reverse f) ws
  | 0, _, f, h1, h2 => by
    refine ⟨[], ?_, ?_, by simp, by simp, by simp⟩
    · simp [St.failLoop]
    · simp [St.failLoop]
  | k + 1, hk, f, h1, h2 => by
    have hlt : k < p.trail.length := hk
    obtain ⟨lit, hlit⟩ : ∃ lit, lit = p.trail[k] := ⟨_, rfl⟩
    have hat : p.At k lit := by unfold Pt.At; rw [hlit]; exact List.getElem?_eq_getElem hlt
    have htk : p.trail.take (k + 1) = p.trail.take k ++ [lit] := by
      rw [List.take_add_one, List.getElem?_eq_getElem hlt, ← hlit]; simp
    have htr : (p.trail.take (k + 1)).reverse = lit :: (p.trail.take k).reverse := by
      rw [htk]; simp
    have hnd : ((lit :: (p.trail.take k).reverse).map Lit.var).Nodup := by
      rw [← htr, List.map_reverse, List.nodup_reverse, List.map_take]
      exact (List.take_sublist _ _).nodup h.tr.nodup
    rw [htr] at h1 h2 ⊢
    rw [List.map_cons, List.nodup_cons] at hnd
    have hne : ∀ l ∈ (p.trail.take k).reverse, l.var ≠ lit.var := fun l hl q => hnd.1 (q ▸ List.mem_map_of_mem hl)
    have hmem : ∀ j l, j < k → p.At j l → l ∈ (p.trail.take k).reverse := by
      intro j l hj hl
      rw [List.mem_reverse, List.mem_take_iff_getElem]
      have := List.getElem?_eq_some_iff.1 hl
      obtain ⟨q1, q2⟩ := this
      exact ⟨j, by simp; omega, q2⟩
    rw [St.failLoop]
    by_cases hf : f.flags lit.var = true
    · rw [if_pos hf]
      simp only
      obtain ⟨f1, hf1⟩ : ∃ f1 : St.Fail, f1 = { f with flags := put f.flags lit.var false, count := f.count - 1 } := ⟨_, rfl⟩
      have c1 : f1.count = flagged f1.flags (p.trail.take k).reverse := by
        rw [hf1]
        simp only
        rw [h1]
        unfold flagged
        rw [List.countP_cons, hf]
        simp only [if_true, Nat.add_sub_cancel]
        refine List.countP_congr (fun y hy => ?_)
        simp [put, hne y hy]
      have c2 : ∀ v, f1.flags v = true → ∃ l ∈ (p.trail.take k).reverse, l.var = v := by
        intro v hv
        rw [hf1] at hv
        simp only [put] at hv
        split at hv
        · cases hv
        · rename_i hvl
          obtain ⟨l, hl, hlv⟩ := h2 v hv
          rcases List.mem_cons.1 hl with rfl | hl
          · exact absurd hlv.symm hvl
          · exact ⟨l, hl, hlv⟩
      have c3 : ∀ l ∈ p.trail.take k, f.flags l.var = true → f1.flags l.var = true := by
        intro l hl hfl
        rw [hf1]; simp [put, hne l (List.mem_reverse.2 hl), hfl]
      have fin : ∀ g : St.Fail, g.count = flagged g.flags (p.trail.take k).reverse →
          (∀ v, g.flags v = true → ∃ l ∈ (p.trail.take k).reverse, l.var = v) →
          ∃ ws, FailHints C p k g (if g.count = 0 then g else St.failLoop p C.lits (p.trail.take k).reverse g) ws := by
        intro g g1 g2
        split
        · rename_i hz
          rw [hz] at g1
          have hno := flagged_zero g1.symm
          refine ⟨[], by simp, fun _ hl => hl, by simp, by simp, ?_⟩
          intro l hl hfl
          rw [hno l (List.mem_reverse.2 hl)] at hfl
          cases hfl
        · exact failLoop_hints h k (by omega) g g1 g2
      subst hf1
      by_cases hr : p.reason lit.var = .unit
      · rw [if_pos hr]
        by_cases hl : p.level lit.var > 0
        · rw [if_pos hl]
          obtain ⟨ws, w⟩ := fin { f with core := f.core ++ [lit], flags := put f.flags lit.var false, count := f.count - 1 } c1 c2
          refine ⟨ws, w.hashes, fun l hl => w.sub l (by simp [hl]), ?_, w.later, ?_⟩
          · intro m hm
            obtain ⟨⟨j, hj, hjm⟩, w2⟩ := w.cited m hm
            exact ⟨⟨j, by omega, hjm⟩, w2⟩
          · intro l hl hfl
            rw [htk, List.mem_append, List.mem_singleton] at hl
            rcases hl with hl | rfl
            · exact w.flagged l hl (c3 l hl hfl)
            · exact .inl (w.sub l (by simp))
        · rw [if_neg hl]
          obtain ⟨ws, w⟩ := fin { f with flags := put f.flags lit.var false, count := f.count - 1 } c1 c2
          refine ⟨ws, w.hashes, w.sub, ?_, w.later, ?_⟩
          · intro m hm
            obtain ⟨⟨j, hj, hjm⟩, w2⟩ := w.cited m hm
            exact ⟨⟨j, by omega, hjm⟩, w2⟩
          · intro l hl' hfl
            rw [htk, List.mem_append, List.mem_singleton] at hl'
            rcases hl' with hl' | rfl
            · exact w.flagged l hl' (c3 l hl' hfl)
            · refine .inr (.inl ⟨h.tr.at_true hat, .inl ⟨k, hat, ?_⟩⟩)
              rw [← h.tr.level k l hat]; omega
      · rw [if_neg hr]
        obtain ⟨r1, r2⟩ := reason_spec h hat hr
        obtain ⟨f2, hf2⟩ : ∃ f2 : St.Fail, f2 = { f with flags := put f.flags lit.var false, count := f.count - 1, hashes := f.hashes ++ [clauseHash ((p.reason lit.var).lits C.lits) ^^^ litHash lit] } := ⟨_, rfl⟩
        rw [← hf2]
        obtain ⟨a1, a2, a3, a4, a5, a6⟩ := addLits_spec hnd.2 ((p.reason lit.var).lits C.lits) f2 (by
          intro y hy
          obtain ⟨j, hj, hjy⟩ := r1 y hy
          exact ⟨y.neg, hmem j _ hj hjy, by simp⟩) (by rw [hf2]; exact c1) (by rw [hf2]; exact c2)
        obtain ⟨ws, w⟩ := fin _ a1 a3
        refine ⟨lit :: ws, ?_, ?_, ?_, ?_, ?_⟩
        · rw [w.hashes, a6, hf2]
          simp only [List.map_cons, List.append_assoc, List.singleton_append]
          rfl
        · intro l hl
          exact w.sub l (by rw [a2, hf2]; exact hl)
        · intro m hm
          rcases List.mem_cons.1 hm with rfl | hm
          · refine ⟨⟨k, by omega, hat⟩, hr, ?_⟩
            intro l hl
            obtain ⟨j, hj, hjl⟩ := r1 l hl
            have hlm := hmem j _ hj hjl
            rw [List.mem_reverse] at hlm
            rcases w.flagged l.neg hlm (by simpa using a5 l hl) with h3 | h3 | h3
            · exact .inl h3
            · exact .inr (.inl h3)
            · exact .inr (.inr (by simp [h3]))
          · obtain ⟨⟨j, hj, hjm⟩, w2, w3⟩ := w.cited m hm
            refine ⟨⟨j, by omega, hjm⟩, w2, fun l hl => ?_⟩
            rcases w3 l hl with h3 | h3 | h3
            · exact .inl h3
            · exact .inr (.inl h3)
            · exact .inr (.inr (by simp [h3]))
        · rw [List.pairwise_cons]
          refine ⟨?_, w.later⟩
          intro m hm i j hi hj
          obtain ⟨⟨j', hj', hjm⟩, _⟩ := w.cited m hm
          rw [(h.tr.uniq hi hat rfl).1, (h.tr.uniq hj hjm rfl).1]
          exact hj'
        · intro l hl hfl
          rw [htk, List.mem_append, List.mem_singleton] at hl
          rcases hl with hl | rfl
          · rcases w.flagged l hl (a4 _ (by rw [hf2]; exact c3 l hl hfl)) with h3 | h3 | h3
            · exact .inl h3
            · exact .inr (.inl h3)
            · exact .inr (.inr (by simp [h3]))
          · exact .inr (.inr (by simp))
    · rw [if_neg hf]
      rw [Bool.not_eq_true] at hf
      obtain ⟨ws, w⟩ := failLoop_hints h k (by omega) f (by
        rw [h1]; unfold flagged; rw [List.countP_cons, hf]; simp) (by
        intro v hv
        obtain ⟨l, hl, hlv⟩ := h2 v hv
        rcases List.mem_cons.1 hl with rfl | hl
        · rw [hlv, hv] at hf; cases hf
        · exact ⟨l, hl, hlv⟩)
      refine ⟨ws, w.hashes, w.sub, ?_, w.later, ?_⟩
      · intro m hm
        obtain ⟨⟨j, hj, hjm⟩, w2⟩ := w.cited m hm
        exact ⟨⟨j, by omega, hjm⟩, w2⟩
      · intro l hl hfl
        rw [htk, List.mem_append, List.mem_singleton] at hl
        rcases hl with hl | rfl
        · exact w.flagged l hl hfl
        · rw [hf] at hfl; cases hfl

/-- Literals without flags are skipped. -/
theorem failLoop_skip (p : Pt) (lits : Nat → List Lit) : ∀ (t1 t2 : List Lit) (f : St.Fail), (∀ l ∈ t1, f.flags l.var = false) →
    St.failLoop p lits (t1 ++ t2) f = St.failLoop p lits t2 f
  | [], _, _, _ => rfl
  | y :: t1, t2, f, h => by
    rw [List.cons_append, St.failLoop, if_neg (by rw [h y (by simp)]; simp)]
    exact failLoop_skip p lits t1 t2 f (fun l hl => h l (by simp [hl]))

/-- The failed core is refuted by the clauses cited. -/
theorem fail_hints {pres : Nat → Prop} {C : Cl} (h : CInv pres C p) {flags : Nat → Bool} (hc : ∀ v, flags v = false)
    {y : Lit} (ha : p.isFalse y = true) {g : St.Fail}
    (hg : St.failLoop p C.lits p.trail.reverse { core := [y], flags := put flags y.var true, count := 1 } = g) :
    y ∈ g.core ∧ ((y.neg ∈ g.core ∨ p.Root y.neg) ∨ ∃ hs, g.hashes.reverse = hs.map clauseHash ∧ (∀ d ∈ hs, C.In d) ∧
      UnitChain Lit.neg (fun l => l ∈ g.core ∨ p.Root l) hs) := by
  have ht : p.isTrue y.neg = true := by rw [Pt.isTrue_neg]; exact ha
  by_cases hat : ∃ k, p.At k y.neg
  · obtain ⟨k, hk⟩ := hat
    have hlt : k < p.trail.length := hk.lt
    have hsplit : p.trail.reverse = (p.trail.drop (k + 1)).reverse ++ (p.trail.take (k + 1)).reverse := by
      rw [← List.reverse_append, List.take_append_drop]
    have htk : p.trail.take (k + 1) = p.trail.take k ++ [y.neg] := by
      have hk' : p.trail[k]? = some y.neg := hk
      rw [List.take_add_one, hk']; simp
    have hnd := h.tr.nodup
    have hskip : ∀ l ∈ (p.trail.drop (k + 1)).reverse, put flags y.var true l.var = false := by
      intro l hl
      rw [List.mem_reverse] at hl
      have : l.var ≠ y.var := by
        intro hv
        rw [← List.take_append_drop (k + 1) p.trail, List.map_append, List.nodup_append] at hnd
        refine hnd.2.2 y.var ?_ l.var (List.mem_map_of_mem hl) hv.symm
        rw [htk]
        simp
      simp [put, this, hc]
    rw [hsplit, failLoop_skip p C.lits _ _ _ hskip] at hg
    have hmem : y.neg ∈ (p.trail.take (k + 1)).reverse := by rw [htk]; simp
    obtain ⟨ws, w⟩ := failLoop_hints h (k + 1) hk.lt { core := [y], flags := put flags y.var true, count := 1 } (by
      have hnd' : ((p.trail.take (k + 1)).reverse.map Lit.var).Nodup := by
        rw [List.map_reverse, List.nodup_reverse, List.map_take]
        exact (List.take_sublist _ _).nodup hnd
      simp only
      rw [flagged_put (hc _) hnd' ⟨_, hmem, by simp⟩]
      have : flagged flags (p.trail.take (k + 1)).reverse = 0 := by
        unfold flagged; rw [List.countP_eq_zero]; intro l _; simp [hc]
      rw [this]) (by
      intro v hv
      simp only [put] at hv
      split at hv
      · rename_i hva; exact ⟨_, hmem, by rw [hva]; simp⟩
      · rw [hc] at hv; cases hv)
    rw [hg] at w
    have hyc : y ∈ g.core := w.sub y (by simp)
    refine ⟨hyc, ?_⟩
    rcases w.flagged y.neg (by rw [htk]; simp) (by simp [put]) with h3 | h3 | h3
    · exact .inl (.inl h3)
    · exact .inl (.inr h3)
    right
    -- the literal is the first one
    have hhead : ∃ ws', ws = y.neg :: ws' := by
      cases ws with
      | nil => cases h3
      | cons z ws' =>
        rcases List.mem_cons.1 h3 with h4 | h4
        · exact ⟨ws', by rw [h4]⟩
        · exfalso
          have hp := (List.pairwise_cons.1 w.later).1 y.neg h4
          obtain ⟨⟨j, hj, hjz⟩, _⟩ := w.cited z (by simp)
          have := hp j k hjz hk
          omega
    obtain ⟨ws', rfl⟩ := hhead
    have hlate := List.pairwise_cons.1 w.later
    have hgood : ∀ m ∈ y.neg :: ws', ∀ l ∈ (p.reason m.var).lits C.lits, (l.neg ∈ g.core ∨ p.Root l.neg) ∨ l.neg ∈ ws'.reverse := by
      intro m hm l hl
      obtain ⟨⟨j, hj, hjm⟩, w2, w3⟩ := w.cited m hm
      obtain ⟨i, hi, hil⟩ := Reason.at_earlier h hjm l hl
      rcases w3 l hl with h4 | h4 | h4
      · exact .inl (.inl h4)
      · exact .inl (.inr h4)
      · rcases List.mem_cons.1 h4 with h5 | h5
        · exfalso
          rw [h5] at hil
          have := (h.tr.uniq hil hk rfl).1
          omega
        · exact .inr (List.mem_reverse.2 h5)
    obtain ⟨_, wr, _⟩ := w.cited y.neg (by simp)
    obtain ⟨s1, s2, s3⟩ := reasonClause_spec h hk wr
    refine ⟨ws'.reverse.map (reasonClause p C.lits) ++ [reasonClause p C.lits y.neg], ?_, ?_, ?_⟩
    · rw [w.hashes]
      simp only [List.nil_append, List.map_cons, List.reverse_cons, List.map_append, List.map_nil, s2]
      rw [← List.map_reverse, List.map_map]
      congr 1
      refine List.map_congr_left fun m hm => ?_
      obtain ⟨⟨j, hj, hjm⟩, w2, _⟩ := w.cited m (by simp [List.mem_reverse.1 hm])
      exact (reasonClause_spec h hjm w2).2.1.symm
    · intro d hd
      rw [List.mem_append, List.mem_singleton] at hd
      rcases hd with hd | rfl
      · obtain ⟨m, hm, rfl⟩ := List.mem_map.1 hd
        obtain ⟨⟨j, hj, hjm⟩, w2, _⟩ := w.cited m (by simp [List.mem_reverse.1 hm])
        exact (reasonClause_spec h hjm w2).1
      · exact s1
    · refine chain_of h _ _ ?_ ?_ ?_
      · rw [List.pairwise_reverse]; exact hlate.2
      · intro m hm
        obtain ⟨⟨j, hj, hjm⟩, w2, _⟩ := w.cited m (by simp [List.mem_reverse.1 hm])
        exact ⟨⟨j, hjm⟩, w2, hgood m (by simp [List.mem_reverse.1 hm])⟩
      · intro l hl
        rcases (s3 l).1 hl with rfl | h4
        · left; left
          rw [Lit.neg_neg]; exact hyc
        · exact hgood y.neg (by simp) l h4
  · have hno : ∀ l ∈ p.trail.reverse, (put flags y.var true) l.var = false := by
      intro l hl
      simp only [put]
      split
      · rename_i hv
        exfalso
        rw [List.mem_reverse] at hl
        obtain ⟨k, hk⟩ := Pt.At.of_mem hl
        have h2 := h.tr.val l hl
        rw [hv] at h2
        have h3 := Pt.isTrue_iff.1 ht
        rw [Lit.var_neg, h2] at h3
        have : l = y.neg := Lit.ext_var_neg (by simpa using hv) (by
          cases h5 : l.isNeg <;> cases h6 : y.neg.isNeg <;> simp_all)
        subst this
        exact hat ⟨k, hk⟩
      · exact hc _
    rw [failLoop_none p C.lits _ _ hno] at hg
    subst hg
    refine ⟨by simp, .inl (.inr ⟨ht, .inr ?_⟩)⟩
    rcases h.tr.off y.neg.var (by rw [Pt.isTrue_iff.1 ht]; simp) with ⟨l, hl, hlv⟩ | h1
    · exfalso
      obtain ⟨k, hk⟩ := Pt.At.of_mem hl
      have h2 := h.tr.val l hl
      have h3 := Pt.isTrue_iff.1 ht
      rw [hlv, h3] at h2
      have : y.neg = l := Lit.ext_var_neg hlv.symm (by
        cases h5 : l.isNeg <;> cases h6 : y.neg.isNeg <;> simp_all)
      rw [← this] at hk
      exact hat ⟨k, hk⟩
    · exact h1

/-- `analyze_assumption_conflict`. -/
theorem Tracked.fail {b : Abs} (h : Tracked (some b) s) (hi : SInv F A ids s) (hl : s.asm.lits[s.p.curLevel]? = some l) (hf : s.p.isFalse l = true)
    (hc : ¬ Single s.log → ∀ v, s.tmp v = false) (ho : s.analyzeAssumption l = .ok s') : Tracked (some b) s' := by
  obtain ⟨V, k1, k2⟩ := h.view
  have hv := h.v
  have hmem := hi.fail_mem hl
  have hle := failLoop_le s.p s.db.lits s.p.trail.reverse
    { core := [l], flags := put s.tmp l.var true, count := 1 } (fun _ h => by cases h)
  have hspec := fun (hq : ¬ Single s.log) g hg => fail_hints hi.core.c (flags := s.tmp) (hc hq) hf (g := g) hg
  unfold St.analyzeAssumption at ho
  simp only at ho
  have hspec := fun hq => hspec hq _ rfl
  have hlits : (cls s.bins.byLit s.db).lits = s.db.lits := rfl
  rw [hlits] at hspec
  generalize St.failLoop s.p s.db.lits s.p.trail.reverse
    { core := [l], flags := put s.tmp l.var true, count := 1 } = f at *
  have hpr : ∀ m ∈ f.core, s.vars.pres m.var := fun m hm => (k2.asm m (hmem m hm)).1
  have hcn : f.core.Nodup := by
    obtain ⟨ks, h1, h2⟩ := hle.1
    rw [h2]
    refine List.nodup_cons.2 ⟨fun hm => ?_, h1.nodup (List.nodup_reverse.2 (List.Nodup.of_map _ hi.core.c.tr.nodup))⟩
    have h3 := hi.core.c.tr.val l (List.mem_reverse.1 (h1.subset hm))
    rw [Pt.isFalse_iff.1 hf] at h3
    simp at h3
  split at ho
  · cases ho
  · rename_i us hus
    have h0 : Tracked (some b) { s with tmp := f.flags, asm := { s.asm with failedCore := f.core, userFailedCore := us } } :=
      ⟨hv, h.r, V, k1, k2.b, k2.use, k2.unsat, k2.asm⟩
    rw [St.emit_glit (s := { s with tmp := f.flags, asm := { s.asm with failedCore := f.core, userFailedCore := us } })
      (st := .failedAssumptions f.core f.hashes.reverse) hpr] at ho
    cases ho
    refine ⟨hv, h.r, V, k1.fail (fun hq => ?_) ⟨k2.b.v.nodup hv hcn hpr, ?_, fun y hy => hle.2.2 y (List.mem_reverse.1 hy)⟩, k2.b, k2.use, k2.unsat, k2.asm⟩
    rotate_left
    · have h1 : s.p.trail.length ≤ s.vars.gfs.len := (Ordin.le ⟨hi.core.c.pres, hi.core.c.tr.nodup⟩ hv :)
      have h2 := k2.b.v.slen
      have h3 := k2.b.v.nvars
      have h5 := hle.2.1
      simp only [List.length_reverse, List.length_nil] at h5 ⊢
      omega
    obtain ⟨f1, f2⟩ := hspec hq
    have hacc : V.Acc (gstep s.vars (.failedAssumptions f.core f.hashes.reverse)) := by
      refine ⟨?_, ?_⟩
      · intro y hy
        obtain ⟨m, hm, rfl⟩ := List.mem_map.1 hy
        exact (k2.asm m (hmem m hm)).2
      · rcases f2 with (f2 | f2) | ⟨hs, f3, f4, f5⟩
        · exact .inl ⟨glit s.vars l, List.mem_map.2 ⟨l, f1, rfl⟩, .inl (by rw [← glit_neg]; exact List.mem_map.2 ⟨_, f2, rfl⟩)⟩
        · refine .inl ⟨glit s.vars l, List.mem_map.2 ⟨l, f1, rfl⟩, .inr ?_⟩
          rw [← glit_neg]
          exact (k2.b.u.true_iff hv (by simpa using hpr l f1)).2 (h.r.known.2 f2)
        · right
          rw [f3]
          refine k2.b.hints hv k2.use f4 f5 ?_
          rintro y hy (h1 | h1)
          · exact .inl (List.mem_map.2 ⟨y, h1, rfl⟩)
          · exact .inr ((k2.b.u.true_iff hv hy).2 (h.r.known.2 h1))
    have htr : V.Tr (gstep s.vars (.failedAssumptions f.core f.hashes.reverse)) := by
      intro y hy
      obtain ⟨u, d, i, h1, h2, _⟩ := k2.b.as b rfl y (hacc.1 y hy)
      refine ⟨?_, .inl ?_⟩
      · rw [k2.b.v.nvars]; exact (List.getElem?_eq_some_iff.1 h2).1
      · rw [k2.b.v.user, (hv.us u _).1 h1]; rfl
    exact ⟨hacc, htr⟩

/-- `enqueue_assumption` when an assumption is false. -/
theorem Tracked.enqLoop_conflict {b : Abs} : ∀ (n : Nat) {s : St α}, Tracked (some b) s → SInv F A ids s → (¬ Single s.log → ∀ v, s.tmp v = false) →
    St.enqLoop n s = .ok (s', .conflict) → Tracked (some b) s'
  | 0, _, _, _, _, h => by cases h
  | n + 1, s, h, hi, hc, ho => by
    rw [St.enqLoop] at ho
    simp only at ho
    split at ho
    · cases ho
    · rename_i l hl
      split at ho
      · rename_i hv
        obtain ⟨t, h1, ho⟩ := bind_inv ho
        cases ho
        exact h.fail hi hl (by rw [← Pt.litValue_false]; exact hv) hc h1
      · rename_i hv
        exact Tracked.enqLoop_conflict n (h.fewer fun m hm => St.swapRemove_mem (List.getElem?_eq_some_iff.1 hl).1 hm) (hi.dropAssumption hl (by rw [← Pt.litValue_true]; exact hv)) hc ho
      · cases ho

/-- The literals of a model. -/
theorem modelLits_nodup (m : List (Option Bool)) : (m.zipIdx.filterMap (fun x => x.1.map (fun b => Lit.mk' x.2 b))).Nodup := by
  suffices h : ∀ (m : List (Option Bool)) k, ((m.zipIdx k).filterMap (fun x => x.1.map (fun b => Lit.mk' x.2 b))).Nodup ∧
      ∀ l ∈ (m.zipIdx k).filterMap (fun x => x.1.map (fun b => Lit.mk' x.2 b)), k ≤ l.var from (h m 0).1
  intro m
  induction m with
  | nil => intro k; simp
  | cons a m ih =>
    intro k
    obtain ⟨h1, h2⟩ := ih (k + 1)
    rw [List.zipIdx_cons, List.filterMap_cons]
    cases a with
    | none => exact ⟨h1, fun l hl => Nat.le_of_succ_le (h2 l hl)⟩
    | some b =>
      refine ⟨List.nodup_cons.2 ⟨fun hm => ?_, h1⟩, fun l hl => ?_⟩
      · have := h2 _ hm
        rw [Lit.var_mk'] at this
        omega
      · rcases List.mem_cons.1 hl with rfl | hl
        · rw [Lit.var_mk']
        · exact Nat.le_of_succ_le (h2 l hl)

theorem mem_modelLits {m : List (Option Bool)} {l : Lit} :
    l ∈ (m.zipIdx).filterMap (fun x => x.1.map (fun b => Lit.mk' x.2 b)) ↔ m[l.var]? = some (some (!l.isNeg)) := by
  rw [List.mem_filterMap]
  constructor
  · rintro ⟨⟨o, g⟩, h1, h2⟩
    obtain ⟨b, rfl, rfl⟩ := Option.map_eq_some_iff.1 h2
    have := List.mem_zipIdx_iff_getElem?.1 h1
    simpa using this
  · intro h
    exact ⟨(some (!l.isNeg), l.var), List.mem_zipIdx_iff_getElem?.2 h, by simp [Lit.mk'_var_neg]⟩

/-- `reconstruct_global_model`. -/
theorem Tracked.reconstruct {b : Abs} (h : Tracked (some b) s) (hi : SInv b.clauses b.assumptions ids s)
    (hn : ∀ u, b.name u = (s.vars.gfu.map u).map ids) (h2 : Prop2 s.bins.byLit s.db s.p)
    (hq : s.p.qhead = s.p.trail.length) (hall : ∀ v, s.vars.pres v → s.p.value v ≠ none)
    (hlen : s.asm.lits.length ≤ s.p.curLevel) (hu : s.sat ≠ .unsat) : Tracked (some b) s.reconstruct := by
  obtain ⟨V, k1, k2⟩ := h.view
  have hv := h.v
  obtain ⟨c1, c2⟩ := hi.core.c.complete h2.b h2.w hq
  obtain ⟨τ, t1, t2, t3⟩ := hi.model h2 hq hall hlen
  have hget : ∀ (g : Nat) (d : VarData), s.vars.data[g]? = some d → (s.vars.data.mapIdx s.modelValue)[g]? = some (s.modelValue g d) := by
    intro g d hd
    rw [List.getElem?_mapIdx, hd]; rfl
  have hval : ∀ g, s.vars.Live g → (s.vars.data.mapIdx s.modelValue)[g]? = some (some (τ (ids g))) := by
    rintro g ⟨d, hd, hdel⟩
    rw [hget g d hd, t3 g ⟨d, hd, hdel⟩]
    unfold St.modelValue
    rw [hdel]
    simp only [Bool.false_eq_true, if_false]
    cases hs : s.vars.sfg.map g with
    | none => simp [hd]
    | some v =>
      simp only
      obtain ⟨x, hb⟩ := Option.ne_none_iff_exists'.1 (hall v (by simp [Vars.pres, (hv.gs g v).1 hs]))
      rw [hb]; rfl
  have htrue : ∀ l, s.vars.pres l.var → s.p.isTrue l = true →
      glit s.vars l ∈ ((s.vars.data.mapIdx s.modelValue).zipIdx).filterMap (fun x => x.1.map (fun b => Lit.mk' x.2 b)) := by
    intro l hp hl
    obtain ⟨g, hg⟩ := Option.isSome_iff_exists.1 hp
    have hsg := (hv.gs g l.var).2 hg
    have hlive := hv.slive _ _ hg
    rw [mem_modelLits, glit_var hg, glit_isNeg, hval g hlive, t3 g hlive, hsg]
    simp only
    rw [Pt.isTrue_iff.1 hl]; rfl
  have hacc : V.Acc (.model (((s.vars.data.mapIdx s.modelValue).zipIdx).filterMap (fun x => x.1.map (fun b => Lit.mk' x.2 b)))) := by
    refine ⟨?_, ?_, ?_, ?_⟩
    · intro l hl hnl
      rw [mem_modelLits] at hl hnl
      rw [Lit.var_neg, hl] at hnl
      simp at hnl
    · intro l hl
      rw [mem_modelLits] at hl
      have hlt := (List.getElem?_eq_some_iff.1 hl).1
      rw [List.length_mapIdx] at hlt
      refine ⟨by rw [k2.b.v.nvars]; exact hlt, fun hk => ?_⟩
      obtain ⟨d, hd⟩ : ∃ d, s.vars.data[l.var]? = some d := ⟨_, List.getElem?_eq_getElem hlt⟩
      rw [hget _ d hd] at hl
      have hl := Option.some.inj hl
      unfold St.modelValue at hl
      have hkn := (k2.b.u l.var l.isNeg).1 hk
      unfold KnownG at hkn
      split at hl
      · cases hl
      · rename_i hdel
        cases hs : s.vars.sfg.map l.var with
        | none =>
          rw [hs] at hl hkn
          obtain ⟨d', q1, q2, q3⟩ := hkn
          rw [hd] at q1
          obtain rfl := Option.some.inj q1
          rw [q3] at hl
          simp at hl
        | some v =>
          rw [hs] at hl hkn
          have := Pt.isTrue_iff.1 hkn.1.1
          simp only at hl
          rw [Lit.var_mk', hl] at this
          simp at this
    · intro l hl
      obtain ⟨u, d, i, a1, a2, a3, a4, a5⟩ := k2.b.as b rfl l hl
      have hlive : s.vars.Live l.var := by
        obtain ⟨d', q1, q2, _⟩ := hv.ulive _ _ a1
        exact ⟨d', q1, q2⟩
      have := t2 _ a5
      rw [hn u, a1] at a4
      simp only [Option.map_some, Option.some.injEq] at a4
      rw [mem_modelLits, hval _ hlive, a4]
      unfold Lit.holds at this
      simpa using this
    · intro red k hk hpos
      obtain ⟨ls, o1, rfl⟩ := k2.b.c.only red k hk hpos
      have h2l : 2 ≤ ls.length := by rw [← o1.length hv]; exact hk.len
      rw [k2.b.c.cnt red ls o1 h2l] at hpos
      suffices ∃ l ∈ ls, s.p.isTrue l = true by
        obtain ⟨l, hl, ht⟩ := this
        exact ⟨glit s.vars l, mem_canon.2 ⟨l, hl, rfl⟩, htrue l (o1.pres l hl) ht⟩
      have long : ∀ c ∈ s.db.iter, (s.db.lits c).Perm ls → ∃ l ∈ ls, s.p.isTrue l = true := by
        intro c hc hperm
        rcases c2 c (Db.mem_iter.1 hc) with ⟨l, hl, ht⟩ | ⟨l, m, hl, hm, hne, hv, _⟩
        · exact ⟨l, hperm.mem_iff.1 hl, ht⟩
        · exact absurd hv (hall _ (o1.pres l (hperm.mem_iff.1 hl)))
      unfold stored at hpos
      split at hpos
      · rename_i y z
        split at hpos
        · omega
        · rw [List.count_pos_iff] at hpos
          by_cases hy : s.p.isTrue y = true
          · exact ⟨y, by simp, hy⟩
          · refine ⟨z, by simp, c1 y.neg z hpos ?_⟩
            obtain ⟨x, hx⟩ := Option.ne_none_iff_exists'.1 (hall _ (o1.pres y (by simp)))
            rw [Pt.isTrue_iff] at hy ⊢
            rw [Lit.var_neg, hx]
            rw [hx] at hy
            cases x <;> cases hy1 : y.isNeg <;> simp_all
      · rw [List.countP_pos_iff] at hpos
        obtain ⟨c, hc, h3⟩ := hpos
        rw [Bool.and_eq_true, decide_eq_true_eq] at h3
        exact long c hc h3.2
  refine ⟨hv, h.r, V, k1.snoc hacc ⟨?_, fun l hl => (hacc.2.1 l hl).1⟩, k2.b, k2.use, ⟨fun hun => absurd (k2.unsat.1 hun) hu, fun hun => by cases hun⟩, k2.asm⟩
  exact modelLits_nodup _

end Varisat.Solver
