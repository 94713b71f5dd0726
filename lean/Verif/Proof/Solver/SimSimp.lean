import Verif.Proof.Solver.SimUnits
import Verif.Proof.Solver.Units
/-!
# `unit_simplify`, as the checker sees it
-/
namespace Varisat.Solver

open Api (Abs)
open Checker (View LitsOk SamplingMode hashOf)

variable {α : Type} [LinearOrder α]
variable {a : Option Abs} {x : Vars} {p q : Pt} {st : Bool → List Lit → Nat} {V : View} {l m : Lit} {s s' : St α} {e : Env α}
variable {F : List (List Lit)} {A : List Lit} {ids : Nat → Nat} {bin : Lit → List Lit} {db : Db α}

theorem SimB.lt_nvars (hb : SimB a x p st V) (hv : VInv x) (h : x.pres l.var) : (glit x l).var < V.nvars := by
  obtain ⟨g, hg⟩ := Option.isSome_iff_exists.1 h
  obtain ⟨d, h1, _⟩ := hv.slive _ _ hg
  rw [glit_var hg, hb.v.nvars]
  exact (List.getElem?_eq_some_iff.1 h1).1

/-- Deleting a clause with a literal known to be true. -/
theorem SimB.acc_satisfied (hb : SimB a x p st V) (hv : VInv x) {c : List Lit} (ho : Ordin x c) (hl : 2 ≤ c.length)
    (hs : 0 < st false c) (ht : ∃ l ∈ c, Known p l) : V.Acc (gstep x (.deleteClause c .satisfied)) := by
  refine ⟨ho.notaut hv, ?_, ?_, ?_, ?_⟩
  · exact (ho.length hv).symm ▸ hl
  · show 0 < V.cnt false (canon x c)
    rw [hb.c.cnt false c ho hl]; exact hs
  · obtain ⟨l, h1, h2⟩ := ht
    exact ⟨glit x l, List.mem_map.2 ⟨l, h1, rfl⟩, (hb.u.true_iff hv (ho.pres l h1)).2 h2⟩
  · intro k hk
    obtain ⟨l, h1, rfl⟩ := List.mem_map.1 hk
    exact hb.lt_nvars hv (ho.pres l h1)

theorem SimB.acc_redundant (hb : SimB a x p st V) (hv : VInv x) {c : List Lit} (ho : Ordin x c) (hl : 2 ≤ c.length)
    (hs : 0 < st true c) : V.Acc (gstep x (.deleteClause c .redundant)) := by
  refine ⟨ho.notaut hv, ?_, ?_, _root_.trivial⟩
  · exact (ho.length hv).symm ▸ hl
  · show 0 < V.cnt true (canon x c)
    rw [hb.c.cnt true c ho hl]; exact hs

/-- Deleting satisfied clauses one after the other. -/
theorem SimB.dels (hv : VInv x) : ∀ (cs : List (List Lit)) {st : Bool → List Lit → Nat} {V : View} {log : List ProofStep},
    SimB a x p st V → (∀ c ∈ cs, Ordin x c ∧ 2 ≤ c.length ∧ ∃ l ∈ c, Known p l) →
    (∀ k, Ordin x k → cs.countP (fun c => decide (c.Perm k)) ≤ st false k) → Seen log V →
    ∃ V', Seen (log ++ cs.map (fun c => gstep x (.deleteClause c .satisfied))) V' ∧
      SimB a x p (fun r k => st r k - if r = false then cs.countP (fun c => decide (c.Perm k)) else 0) V' ∧
      V'.unsat = V.unsat ∧ V'.asm = V.asm
  | [], st, V, log, hb, _, _, hl => ⟨V, by simpa using hl, by simpa using hb, rfl, rfl⟩
  | c :: cs, st, V, log, hb, hc, hk, hl => by
    obtain ⟨h1, h2, h3⟩ := hc c (by simp)
    have hpos : 0 < st false c := by
      have := hk c h1
      rw [List.countP_cons, if_pos (by simp)] at this
      omega
    have b1 := hb.del hv h1 .satisfied
    rw [show decide (DeleteProof.satisfied = DeleteProof.redundant) = false from rfl] at b1
    have hl1 := hl.snoc (hb.acc_satisfied hv h1 h2 hpos h3) (hb.v.ordin hv h1)
    obtain ⟨V', e1, e2, e3, e4⟩ := SimB.dels hv cs b1 (fun d hd => hc d (by simp [hd])) (by
      intro k hko
      have := hk k hko
      rw [List.countP_cons] at this
      unfold less
      by_cases hp : c.Perm k
      · simp only [hp, decide_true, if_true] at this
        simp only [hp, true_and, if_true]
        omega
      · simp only [hp, decide_false, Bool.false_eq_true, if_false] at this
        simp only [hp, false_and, if_false]
        omega) hl1
    refine ⟨V', ?_, e2.congr fun r k _ _ => ?_, e3, e4⟩
    · rw [List.map_cons]
      rw [List.append_assoc] at e1
      exact e1
    · rw [List.countP_cons]
      unfold less
      by_cases hp : c.Perm k
      · cases r <;> simp only [hp, true_and, decide_true, if_true, reduceCtorEq, if_false, Bool.true_eq_false] <;> omega
      · cases r <;> simp only [hp, false_and, decide_false, if_true, reduceCtorEq, if_false, Nat.sub_zero, Nat.add_zero, Bool.false_eq_true]

theorem countP_flatMap_one {β γ : Type} [DecidableEq β] (P : γ → Bool) (f : β → List γ) : ∀ (L : List β), L.Nodup → ∀ b ∈ L,
    (∀ c ∈ L, c ≠ b → (f c).countP P = 0) → (L.flatMap f).countP P = (f b).countP P
  | [], _, b, hb, _ => by cases hb
  | c :: L, hn, b, hb, h => by
    obtain ⟨hc, hn⟩ := List.nodup_cons.1 hn
    rw [List.flatMap_cons, List.countP_append]
    by_cases hcb : c = b
    · subst hcb
      have : (L.flatMap f).countP P = 0 := by
        rw [List.countP_eq_zero]
        intro y hy
        obtain ⟨d, hd, hy⟩ := List.mem_flatMap.1 hy
        exact List.countP_eq_zero.1 (h d (by simp [hd]) (fun e => hc (e ▸ hd))) y hy
      rw [this, Nat.add_zero]
    · rw [h c (by simp) hcb, Nat.zero_add]
      exact countP_flatMap_one P f L hn b (by simpa [Ne.symm hcb] using hb) (fun d hd => h d (by simp [hd]))

theorem emitAll_glit : ∀ (xs : List ProofStep) {s : St α}, (∀ y ∈ xs, ∀ l ∈ stepLits y, s.vars.pres l.var) →
    St.emitAll xs s = .ok { s with log := s.log ++ xs.map (gstep s.vars) }
  | [], s, _ => by simp [St.emitAll]
  | y :: xs, s, h => by
    rw [St.emitAll, St.emit_glit (h y (by simp)), ok_bind,
      emitAll_glit xs (s := { s with log := s.log ++ [gstep s.vars y] }) (fun z hz => h z (by simp [hz]))]
    simp

/-- `simplify_binary`. -/
theorem Tracked.simplifyBinary (h : Tracked a s) (hlo : Loose F ids s.bins.byLit s.db s.vars s.p)
    (hcount : s.vsids.count = s.vars.gfs.len) (ho : s.simplifyBinary = .ok s') : Tracked a s' := by
  obtain ⟨V, k1, k2⟩ := h.view
  have hv := h.v
  have hkn : ∀ l, Known s.p l ↔ s.p.isTrue l = true := by intro l; rw [h.r.known, hlo.root]
  unfold St.simplifyBinary at ho
  simp only at ho
  obtain ⟨codes, hcodes⟩ : ∃ codes, codes = (List.range (2 * s.varCount)).map Lit.mk := ⟨_, rfl⟩
  obtain ⟨f, hf⟩ : ∃ f : Lit → List (List Lit), f = fun lit => ((s.bins.byLit lit).filter (fun other =>
    (!s.p.isUnk lit || !s.p.isUnk other) && decide (lit.neg.code < other.code))).map (fun other => [lit.neg, other]) := ⟨_, rfl⟩
  obtain ⟨cs, hcs⟩ : ∃ cs, cs = codes.flatMap f := ⟨_, rfl⟩
  have hsteps : codes.flatMap s.binSteps = cs.map (fun c => .deleteClause c .satisfied) := by
    rw [hcs, List.map_flatMap]
    congr 1
    funext lit
    rw [hf]
    simp [St.binSteps, Function.comp_def]
  have hmemcs : ∀ c ∈ cs, ∃ lit other, other ∈ s.bins.byLit lit ∧ (s.p.isUnk lit = false ∨ s.p.isUnk other = false) ∧ c = [lit.neg, other] := by
    intro c hc
    rw [hcs] at hc
    obtain ⟨lit, _, hc⟩ := List.mem_flatMap.1 hc
    rw [hf] at hc
    simp only [List.mem_map, List.mem_filter, Bool.and_eq_true, Bool.or_eq_true, Bool.not_eq_true'] at hc
    obtain ⟨other, ⟨h1, h2, _⟩, rfl⟩ := hc
    exact ⟨lit, other, h1, h2, rfl⟩
  have hcsok : ∀ c ∈ cs, Ordin s.vars c ∧ 2 ≤ c.length ∧ ∃ l ∈ c, Known s.p l := by
    intro c hc
    obtain ⟨lit, other, h1, h2, rfl⟩ := hmemcs c hc
    refine ⟨k2.use.bins _ _ (by rw [Lit.neg_neg]; exact h1), by simp, ?_⟩
    simp only [hkn]
    by_cases t1 : s.p.isTrue lit.neg = true
    · exact ⟨_, by simp, t1⟩
    by_cases t2 : s.p.isTrue other = true
    · exact ⟨_, by simp, t2⟩
    exfalso
    have t3 : s.p.isTrue lit = false := by
      by_contra hx
      exact t2 (hlo.cb lit other h1 (by simpa using hx))
    rw [Pt.isTrue_neg] at t1
    have t4 : s.p.isUnk lit = true := by
      by_contra hx
      exact t1 (Pt.false_of t3 (by simpa using hx))
    rcases h2 with h2 | h2
    · rw [t4] at h2; cases h2
    · have t5 := Pt.false_of (by simpa using t2) h2
      rw [← Pt.isTrue_neg] at t5
      have := hlo.cb _ _ (hlo.binSym _ _ h1) t5
      rw [Pt.isTrue_neg] at this
      exact t1 this
  -- how often a clause is deleted
  have hcnt1 : ∀ b c : Lit, Ordin s.vars [b, c] → b.code < c.code → cs.countP (fun d => decide (d.Perm [b, c])) =
      (s.bins.byLit b.neg).count c - (s.binKeep b.neg).count c := by
    intro b c hbc hlt
    have hcodesn : codes.Nodup := by
      rw [hcodes]
      exact List.nodup_range.map (fun i j hij => congrArg Lit.code hij)
    have hbm : b.neg ∈ codes := by
      rw [hcodes, List.mem_map]
      refine ⟨b.neg.code, ?_, rfl⟩
      rw [List.mem_range]
      have h1 := hbc.pres b (by simp)
      obtain ⟨g, hg⟩ := Option.isSome_iff_exists.1 h1
      have := hv.slen _ _ hg
      have h2 : b.neg.var = b.var := Lit.var_neg b
      have h3 : b.neg.var = b.neg.code / 2 := rfl
      unfold St.varCount
      rw [hcount]
      omega
    rw [hcs, countP_flatMap_one _ _ _ hcodesn _ hbm]
    · rw [hf]
      simp only [List.countP_map, List.countP_filter, Lit.neg_neg]
      unfold St.binKeep
      by_cases hu : s.p.isUnk b.neg = true
      · rw [if_pos hu]
        by_cases hc : s.p.isUnk c = true
        · rw [List.count_filter (p := s.p.isUnk) hc, Nat.sub_self, List.countP_eq_zero]
          intro o _ hx
          simp only [hu, Function.comp_apply, Bool.and_eq_true, decide_eq_true_eq, Bool.not_true, Bool.false_or, Bool.not_eq_true'] at hx
          obtain ⟨h1, h2, _⟩ := hx
          rcases perm_pair.1 h1 with ⟨_, rfl⟩ | ⟨rfl, _⟩
          · rw [hc] at h2; cases h2
          · omega
        · have h0 : ((s.bins.byLit b.neg).filter s.p.isUnk).count c = 0 := by
            rw [List.count_eq_zero]
            intro hx
            exact hc (List.mem_filter.1 hx).2
          rw [h0, Nat.sub_zero, List.count]
          refine List.countP_congr fun o _ => ?_
          simp only [hu, Function.comp_apply, Bool.and_eq_true, decide_eq_true_eq, Bool.not_true, Bool.false_or, Bool.not_eq_true', beq_iff_eq]
          constructor
          · rintro ⟨h1, h2, h3⟩
            rcases perm_pair.1 h1 with ⟨_, rfl⟩ | ⟨rfl, _⟩
            · rfl
            · omega
          · rintro rfl
            exact ⟨List.Perm.refl _, by simpa using hc, hlt⟩
      · rw [if_neg hu, List.count_nil, Nat.sub_zero, List.count]
        refine List.countP_congr fun o _ => ?_
        simp only [hu, Function.comp_apply, Bool.and_eq_true, decide_eq_true_eq, Bool.not_false, Bool.true_or, true_and, beq_iff_eq]
        constructor
        · rintro ⟨h1, h3⟩
          rcases perm_pair.1 h1 with ⟨_, rfl⟩ | ⟨rfl, _⟩
          · rfl
          · omega
        · rintro rfl
          exact ⟨List.Perm.refl _, hlt⟩
    · intro lit _ hne
      rw [List.countP_eq_zero]
      intro d hd hx
      rw [hf] at hd
      simp only [List.mem_map, List.mem_filter, Bool.and_eq_true, decide_eq_true_eq] at hd hx
      obtain ⟨o, ⟨_, _, h3⟩, rfl⟩ := hd
      rcases perm_pair.1 hx with ⟨rfl, _⟩ | ⟨h1, rfl⟩
      · exact hne (by simp)
      · rw [h1] at h3; omega
  have hsymm : ∀ b c : Lit, Ordin s.vars [b, c] → (s.bins.byLit b.neg).count c = (s.bins.byLit c.neg).count b := by
    intro b c hbc
    have h1 := k2.b.c.cnt false [b, c] hbc (by simp)
    have h2 := k2.b.c.cnt false [c, b] (hbc.perm (List.Perm.swap _ _ _)) (by simp)
    rw [canon_perm (List.Perm.swap c b [])] at h1
    rw [h1] at h2
    simpa [stored] using h2
  have hkeep : ∀ b c : Lit, (s.binKeep b.neg).count c =
      if s.p.value b.var = none ∧ s.p.value c.var = none then (s.bins.byLit b.neg).count c else 0 := by
    intro b c
    unfold St.binKeep
    by_cases hu : s.p.isUnk b.neg = true
    · rw [if_pos hu]
      rw [Pt.isUnk_iff, Lit.var_neg] at hu
      by_cases hc : s.p.isUnk c = true
      · rw [List.count_filter (p := s.p.isUnk) hc, if_pos ⟨hu, Pt.isUnk_iff.1 hc⟩]
      · rw [if_neg (fun hx => hc (Pt.isUnk_iff.2 hx.2)), List.count_eq_zero]
        intro hx
        exact hc (List.mem_filter.1 hx).2
    · rw [if_neg hu, List.count_nil, if_neg]
      rw [Pt.isUnk_iff, Lit.var_neg] at hu
      exact fun hx => hu hx.1
  have hcnt : ∀ b c : Lit, Ordin s.vars [b, c] → cs.countP (fun d => decide (d.Perm [b, c])) =
      (s.bins.byLit b.neg).count c - (s.binKeep b.neg).count c := by
    intro b c hbc
    rcases Nat.lt_trichotomy b.code c.code with hlt | heq | hlt
    · exact hcnt1 b c hbc hlt
    · exfalso
      have : b = c := Lit.code_inj heq
      subst this
      have := hbc.nodup
      simp at this
    · have hcb := hbc.perm (List.Perm.swap c b [])
      have h1 := hcnt1 c b hcb hlt
      rw [hsymm b c hbc, hkeep b c, hsymm b c hbc]
      rw [hkeep c b] at h1
      simp only [and_comm (a := s.p.value c.var = none)] at h1
      rw [← h1]
      refine List.countP_congr fun d _ => ?_
      simp only [decide_eq_true_eq]
      exact ⟨fun hx => hx.trans (List.Perm.swap _ _ _), fun hx => hx.trans (List.Perm.swap _ _ _)⟩
  have hcnt0 : ∀ k : List Lit, k.length ≠ 2 → cs.countP (fun d => decide (d.Perm k)) = 0 := by
    intro k hk
    rw [List.countP_eq_zero]
    intro d hd hx
    obtain ⟨_, _, _, _, rfl⟩ := hmemcs d hd
    have := (of_decide_eq_true hx).length_eq
    exact hk this.symm
  have hlits : ∀ y ∈ codes.flatMap s.binSteps, ∀ l ∈ stepLits y, s.vars.pres l.var := by
    intro y hy l hl
    rw [hsteps] at hy
    obtain ⟨c, hc, rfl⟩ := List.mem_map.1 hy
    exact (hcsok c hc).1.pres l hl
  rw [← hcodes, emitAll_glit _ hlits, ok_bind] at ho
  obtain rfl := (Except.ok.inj ho).symm
  obtain ⟨V', e1, e2, e3, e4⟩ := SimB.dels hv cs k2.b hcsok (by
    intro k hk
    by_cases hl : k.length = 2
    · match k, hl with
      | [b, c], _ =>
        rw [hcnt b c hk]
        show _ ≤ (s.bins.byLit b.neg).count c
        omega
    · rw [hcnt0 k hl]; omega) k1
  refine ⟨hv, h.r, V', ?_, ⟨e2.congr fun r k hk hl => ?_, ?_, by rw [← k2.unsat]; exact Bool.eq_iff_iff.1 e3, ?_⟩⟩
  · rw [hsteps, List.map_map]
    exact e1
  · by_cases hl2 : k.length = 2
    · match k, hl2 with
      | [b, c], _ =>
        cases r
        · simp only [if_true]
          rw [hcnt b c hk]
          show (s.binKeep b.neg).count c = (s.bins.byLit b.neg).count c - _
          rw [hkeep]
          split <;> omega
        · simp [stored]
    · rw [hcnt0 k hl2, stored_long hl2, stored_long hl2]
      simp
  · refine ⟨fun b c hc => k2.use.bins b c ?_, k2.use.long⟩
    have hc : c ∈ s.binKeep b.neg := hc
    unfold St.binKeep at hc
    split at hc
    · exact (List.mem_filter.1 hc).1
    · cases hc
  · intro l hl
    obtain ⟨j1, j2⟩ := k2.asm l hl
    exact ⟨j1, by rw [e4]; exact j2⟩

theorem InUse.delete (h : InUse x bin db) (hn : db.clauses.Nodup) (c : Nat) : InUse x bin (db.delete c) := by
  refine h.congr (fun d hd => ?_) fun d _ => List.Perm.refl _
  rw [Db.delete_iter hn] at hd
  exact List.mem_of_mem_erase hd

theorem InUse.put (h : InUse x bin db) {c : Nat} {ls : List Lit} (ho : Ordin x ls) (hl : 3 ≤ ls.length) :
    InUse x bin { db with lits := put db.lits c ls } := by
  refine ⟨h.bins, fun d hd => ?_⟩
  show Ordin x (Solver.put db.lits c ls d) ∧ 3 ≤ (Solver.put db.lits c ls d).length
  by_cases hdc : d = c
  · subst hdc; rw [put_same]; exact ⟨ho, hl⟩
  · rw [put_ne _ _ hdc]; exact h.long d hd

/-- The filter of `unit_simplify`. -/
theorem Tracked.simplifyClause (h : Tracked a s) (hlo : Loose F ids s.bins.byLit s.db s.vars s.p) {c : Nat}
    (hc : s.db.Live c) {k : Bool} (ho : s.simplifyClause c = .ok (s', k)) :
    Tracked a (if k then s' else { s' with db := s'.db.delete c }) := by
  obtain ⟨V, k1, k2⟩ := h.view
  have hv := h.v
  have hkn : ∀ l, Known s.p l ↔ s.p.isTrue l = true := by intro l; rw [h.r.known, hlo.root]
  have hci : c ∈ s.db.iter := Db.mem_iter.2 hc
  obtain ⟨o1, o2⟩ := k2.use.long c hci
  have hn := hlo.dbi.nodup
  have hne2 : (s.db.lits c).length ≠ 2 := by omega
  have hst := stored_ref (bin := s.bins.byLit) hci hne2
  unfold St.simplifyClause at ho
  simp only at ho
  by_cases ht : (s.db.lits c).any s.p.isTrue = true
  · rw [if_pos ht, St.emit_glit (st := .deleteClause _ _) o1.pres, ok_bind] at ho
    cases ho
    rw [if_neg (by simp)]
    rw [List.any_eq_true] at ht
    obtain ⟨l, hl, hlt⟩ := ht
    have hdec : decide ((if (s.db.hdr c).tier ≠ Tier.irred then DeleteProof.redundant else DeleteProof.satisfied) = .redundant) =
        decide ((s.db.hdr c).tier ≠ .irred) := by
      by_cases hi : (s.db.hdr c).tier = .irred <;> simp [hi]
    have b1 := k2.b.del hv o1 (if (s.db.hdr c).tier ≠ Tier.irred then DeleteProof.redundant else DeleteProof.satisfied)
    rw [hdec] at b1
    refine ⟨hv, h.r, _, k1.snoc ?_ (k2.b.v.ordin hv o1), ⟨b1.congr fun r k _ _ => Db.delete_stored hn hci hne2 r k, k2.use.delete hn c, k2.unsat, k2.asm⟩⟩
    by_cases hi : (s.db.hdr c).tier = .irred
    · rw [if_neg (by simpa using hi)]
      exact k2.b.acc_satisfied hv o1 (by omega) (by simpa [hi] using hst) ⟨l, hl, (hkn l).2 hlt⟩
    · rw [if_pos hi]
      exact k2.b.acc_redundant hv o1 (by omega) (by simpa [hi] using hst)
  · rw [if_neg ht] at ho
    by_cases hl : ((s.db.lits c).filter s.p.isUnk).length < (s.db.lits c).length
    · rw [if_pos hl] at ho
      have hfsub : ((s.db.lits c).filter s.p.isUnk).Sublist (s.db.lits c) := List.filter_sublist
      have on := o1.sub hfsub
      have hfal : ∀ l ∈ s.db.lits c, l ∉ (s.db.lits c).filter s.p.isUnk → Known s.p l.neg := by
        intro l hlm hln
        rw [hkn, Pt.isTrue_neg]
        refine Pt.false_of ?_ ?_
        · have ht' : (s.db.lits c).any s.p.isTrue = false := by simpa using ht
          rw [List.any_eq_false] at ht'
          simpa using ht' l hlm
        · by_contra hx
          exact hln (List.mem_filter.2 ⟨hlm, by simpa using hx⟩)
      have htwo : 2 ≤ ((s.db.lits c).filter s.p.isUnk).length := by
        rcases hlo.cl c hc with ⟨l, hl, hlt⟩ | ⟨l, m, h1, h2, h3, h4, h5⟩
        · exact absurd (List.any_eq_true.2 ⟨l, hl, hlt⟩) ht
        · have m1 : l ∈ (s.db.lits c).filter s.p.isUnk := List.mem_filter.2 ⟨h1, Pt.isUnk_iff.2 h4⟩
          have m2 : m ∈ (s.db.lits c).filter s.p.isUnk := List.mem_filter.2 ⟨h2, Pt.isUnk_iff.2 h5⟩
          match (s.db.lits c).filter s.p.isUnk, m1, m2 with
          | [y], m1, m2 =>
            simp only [List.mem_singleton] at m1 m2
            exact absurd (m1.trans m2.symm) h3
          | _ :: _ :: _, _, _ => simp
      generalize hnew : (s.db.lits c).filter s.p.isUnk = new at *
      obtain ⟨red, hred⟩ : ∃ red, red = decide ((s.db.hdr c).tier ≠ .irred ∧ new.length > 2) := ⟨_, rfl⟩
      obtain ⟨pr, hpr⟩ : ∃ pr, pr = (if (s.db.hdr c).tier ≠ .irred then DeleteProof.redundant else DeleteProof.simplified) := ⟨_, rfl⟩
      have hdec : decide (pr = .redundant) = decide ((s.db.hdr c).tier ≠ .irred) := by
        rw [hpr]
        by_cases hi : (s.db.hdr c).tier = .irred <;> simp [hi]
      rw [← hred, ← hpr] at ho
      rw [St.emit_glit (st := .atClause _ _ _) on.pres, ok_bind,
        St.emit_glit (s := { s with log := s.log ++ [gstep s.vars (.atClause red new [clauseHash (s.db.lits c)])] }) (st := .deleteClause _ _) o1.pres, ok_bind] at ho
      -- the new clause
      have hacc1 : V.Acc (gstep s.vars (.atClause red new [clauseHash (s.db.lits c)])) := by
        refine ⟨on.notaut hv, .inr ?_⟩
        refine k2.b.hints hv k2.use (known := fun l => l.neg ∈ new ∨ Known s.p l) (hs := [s.db.lits c]) ?_ ?_ ?_
        · intro d hd
          rw [List.mem_singleton] at hd
          subst hd
          exact .inr ⟨c, hc, rfl⟩
        · intro l hlm
          by_cases hln : l ∈ new
          · left; simpa using hln
          · exact .inr (hfal l hlm hln)
        · rintro l hp (h1 | h1)
          · left
            rw [← glit_neg]
            exact List.mem_map.2 ⟨_, h1, rfl⟩
          · exact .inr ((k2.b.u.true_iff hv hp).2 h1)
      obtain ⟨V1, hV1⟩ : ∃ V1, V1 = V.step (gstep s.vars (.atClause red new [clauseHash (s.db.lits c)])) := ⟨_, rfl⟩
      have hV1' : V1 = if red then V.store red (canon s.vars new) else { V.store red (canon s.vars new) with prev := some (canon s.vars new) } := hV1
      have b1 : SimB a s.vars s.p (more (stored s.bins.byLit s.db) red new) V1 := by
        have := k2.b.store hv on htwo red
        rw [hV1']
        split
        · exact this
        · exact this.view (this.c.view rfl) rfl rfl rfl rfl rfl rfl rfl
      have hstore := V.store_vars red (canon s.vars new)
      have hlen2 : 2 ≤ (canon s.vars new).length := by rw [on.length hv]; exact htwo
      have hun1 : V1.unsat = V.unsat := by
        rw [hV1']
        split <;> exact View.store_long_unsat hlen2
      have hasm1 : V1.asm = V.asm := by
        rw [hV1']
        split <;> exact hstore.2.2.2.2.2.1
      have l1 := k1.snoc hacc1 ((k2.b.v.at hv on (by simp) (fun y hy => by
        rw [List.mem_singleton.1 hy]; exact clauseHash_lt _)).mono (view_nvars V _))
      rw [← hV1] at l1
      have hpos : 0 < more (stored s.bins.byLit s.db) red new (decide ((s.db.hdr c).tier ≠ .irred)) (s.db.lits c) := by
        unfold more; omega
      have hacc2 : V1.Acc (gstep s.vars (.deleteClause (s.db.lits c) pr)) := by
        by_cases hi : (s.db.hdr c).tier = .irred
        · have hpr' : pr = .simplified := by rw [hpr, if_neg (by simpa using hi)]
          have hred' : red = false := by rw [hred]; simp [hi]
          rw [hpr']
          refine ⟨o1.notaut hv, (o1.length hv).symm ▸ (by omega : 2 ≤ (s.db.lits c).length), ?_, ?_⟩
          · show 0 < V1.cnt false (canon s.vars (s.db.lits c))
            rw [b1.c.cnt false _ o1 (by omega)]
            simpa [hi] using hpos
          · refine ⟨canon s.vars new, by rw [hV1', hred']; rfl, ?_⟩
            show isSubset _ (canon s.vars (s.db.lits c)) true = true
            unfold isSubset
            rw [isSubsetLoop_spec canon_ssorted canon_ssorted]
            refine ⟨fun k hk => ?_, .inr ?_⟩
            · obtain ⟨l, h1, rfl⟩ := mem_canon.1 hk
              exact mem_canon.2 ⟨l, hfsub.subset h1, rfl⟩
            · by_contra hno
              push_neg at hno
              have hle : (s.db.lits c).length ≤ new.length := by
                refine List.Subperm.length_le (List.subperm_of_subset o1.nd fun l hlm => ?_)
                obtain ⟨m, h1, h2⟩ := mem_canon.1 (hno _ (mem_canon.2 ⟨l, hlm, rfl⟩))
                rwa [← hv.glit_inj (on.pres m h1) (o1.pres l hlm) h2]
              omega
        · have hpr' : pr = .redundant := by rw [hpr, if_pos hi]
          rw [hpr']
          exact b1.acc_redundant hv o1 (by omega) (by simpa [hi] using hpos)
      have l2 := l1.snoc hacc2 (b1.v.ordin hv o1)
      have b2 := b1.del hv o1 pr
      rw [hdec] at b2
      have hun2 : (V1.step (gstep s.vars (.deleteClause (s.db.lits c) pr))).unsat = true ↔ s.sat = .unsat := by
        rw [← k2.unsat]; exact Bool.eq_iff_iff.1 hun1
      have hasm2 : ∀ l ∈ s.asm.lits, s.vars.pres l.var ∧ glit s.vars l ∈ (V1.step (gstep s.vars (.deleteClause (s.db.lits c) pr))).asm := by
        intro l hl
        obtain ⟨j1, j2⟩ := k2.asm l hl
        exact ⟨j1, by show _ ∈ V1.asm; rw [hasm1]; exact j2⟩
      match new, htwo, on, hred, ho, b2 with
      | [l0, l1], _, on, hred, ho, b2 =>
        cases ho
        rw [if_neg (by simp)]
        have hne : l0.var ≠ l1.var := by have := on.nodup; simpa using this
        have hred' : red = false := by rw [hred]; simp
        rw [hred'] at b2
        refine ⟨hv, h.r, _, l2, ⟨b2.congr fun r k _ _ => ?_, (k2.use.addBin on).delete hn c, hun2, hasm2⟩⟩
        show stored (s.bins.add l0 l1).byLit (s.db.delete c) r k = _
        rw [Db.delete_stored hn hci hne2]
        unfold less
        rw [Bins.add_stored hne]
      | l0 :: l1 :: l2' :: tl, _, on, hred, ho, b2 =>
        cases ho
        rw [if_pos rfl]
        have hred' : red = decide ((s.db.hdr c).tier ≠ .irred) := by rw [hred]; simp
        rw [hred'] at b2
        exact ⟨hv, h.r, _, l2, ⟨b2.congr fun r k _ _ => Db.put_stored hn hci hne2 (by simp) r k, k2.use.put on (by simp), hun2, hasm2⟩⟩
    · rw [if_neg hl] at ho
      cases ho
      rw [if_pos rfl]
      exact h

/-- `filter_clauses` with this filter. -/
theorem Tracked.filterLoop : ∀ (cs : List Nat) {s s' : St α} {ks : List Nat}, Tracked a s →
    Loose F ids s.bins.byLit s.db s.vars s.p → (∀ l m, m ∈ s.bins.byLit l → s.p.value m.var = none) →
    (∀ c ∈ cs, c ∈ s.db.clauses) → cs.Nodup → St.filterLoop cs s = .ok (s', ks) → Tracked a s'
  | [], s, s', ks, h, _, _, _, _, ho => by cases ho; exact h
  | c :: cs, s, s', ks, h, hlo, hb, hm, hnd, ho => by
    obtain ⟨hnc, hnd⟩ := List.nodup_cons.1 hnd
    rw [St.filterLoop] at ho
    by_cases hdel : (s.db.hdr c).deleted = true
    · rw [if_pos hdel] at ho
      exact Tracked.filterLoop cs h hlo hb (fun d hd => hm d (by simp [hd])) hnd ho
    · rw [if_neg hdel] at ho
      have hc : s.db.Live c := ⟨hm c (by simp), by simpa using hdel⟩
      obtain ⟨b1, ls, L1, k, f1, f2, f3, f4⟩ := St.simplifyClause_ok hlo hc hb
      have ht := h.simplifyClause hlo hc f1
      rw [f1] at ho
      simp only [ok_bind] at ho
      cases k with
      | true =>
        rw [if_pos rfl] at ht
        obtain ⟨f5, f6⟩ := f3 rfl
        rw [if_pos rfl] at ho
        cases hr : St.filterLoop cs { s with bins := b1, db := { s.db with lits := put s.db.lits c ls }, log := L1 } with
        | error e => rw [hr] at ho; cases ho
        | ok r =>
          rw [hr] at ho
          cases ho
          exact Tracked.filterLoop cs ht f5 f2 (fun d hd => hm d (by simp [hd])) hnd hr
      | false =>
        rw [if_neg (by simp)] at ht
        rw [if_neg (by simp)] at ho
        exact Tracked.filterLoop cs ht (f4 rfl) f2 (fun d hd => hm d (by simp [hd])) hnd ho

/-- The loop over the variables of `unit_simplify`. -/
theorem Tracked.removeLoop : ∀ (vs : List Nat) {s s' : St α}, Tracked a s → SInv F A ids s → s.p.trail = [] → s.p.decisions = [] →
    St.removeLoop vs s = .ok s' → Tracked a s'
  | [], s, s', h, _, _, _, ho => by cases ho; exact h
  | v :: vs, s, s', ht0, h, ht, hdc, ho => by
    rw [St.removeLoop] at ho
    cases hg : s.vars.gfs.map v with
    | none =>
      simp only [hg, Option.isNone_none, if_true] at ho
      exact Tracked.removeLoop vs ht0 h ht hdc ho
    | some g =>
      simp only [hg, Option.isNone_some, Bool.false_eq_true, if_false] at ho
      obtain ⟨d, hd, hdel⟩ := h.v.slive v g hg
      have hglt : g < s.vars.data.length := (List.getElem?_eq_some_iff.1 hd).1
      unfold St.updSolverData at ho
      rw [hg] at ho
      simp only at ho
      rw [if_pos hglt, modify_set hd, ok_bind] at ho
      obtain ⟨d1, hd1⟩ : ∃ d1, d1 = (if (s.p.value v).isSome = true then { d with unit := s.p.value v, isolated := true } else d) := ⟨_, rfl⟩
      rw [← hd1] at ho
      have hsame : DataSame s.vars (s.vars.data.set g d1) := by
        refine DataSame.set hd ?_ ?_ ?_ <;> rw [hd1] <;> split <;> rfl
      have hget : (s.vars.data.set g d1)[g]? = some d1 := by rw [set_get hd, if_pos rfl]
      have hcore : Core F ids s.bins.byLit s.w s.db { s.vars with data := s.vars.data.set g d1 } s.p := by
        by_cases hval : (s.p.value v).isSome = true
        · rw [if_pos hval] at hd1
          obtain ⟨b, hb⟩ := Option.isSome_iff_exists.1 hval
          rw [hd1, hb]
          have hr : s.p.Root (Lit.mk' v b) := by
            rw [Pt.root_level0 h.core.c.tr hdc, Pt.isTrue_iff]
            simpa using hb
          refine h.core.record h.v hg hd hr ?_
          intro hus
          have hatt : s.p.Att v := by
            rcases hus with ⟨c, hc, l, hl, rfl⟩ | ⟨l, m, hm, rfl⟩
            · exact (h.core.c.vars c hc l hl).2
            · exact (h.core.c.binVars l m hm).2
          obtain ⟨l, hl, _⟩ := hatt (by rw [hb]; simp)
          rw [ht] at hl; simp at hl
        · rw [if_neg hval] at hd1
          have : s.vars.data.set g d1 = s.vars.data := by
            apply List.ext_getElem?
            intro k
            rw [set_get hd, hd1]
            by_cases hk : k = g
            · subst hk; rw [if_pos rfl, hd]
            · rw [if_neg hk]
          rw [this]; exact h.core
      have hs1 : SInv F A ids { s with vars := { s.vars with data := s.vars.data.set g d1 } } :=
        ⟨h.v.data hsame, ⟨h.q.wf, h.q.count, h.q.pres, h.q.all⟩, h.fl, h.asm.data hsame, hcore, h.dec, h.as.congr (fun _ _ => rfl)⟩
      have ht1 : Tracked a { s with vars := { s.vars with data := s.vars.data.set g d1 } } := by
        obtain ⟨V, k1, k2⟩ := ht0.view
        have hd2 : d1.deleted = d.deleted ∧ d1.mode = d.mode ∧ d1.assumed = d.assumed := by
          rw [hd1]; split <;> exact ⟨rfl, rfl, rfl⟩
        have hpick : ∀ (k : Nat) (e e' : VarData), s.vars.data[k]? = some e → (s.vars.data.set g d1)[k]? = some e' →
            (k = g ∧ e = d ∧ e' = d1) ∨ (k ≠ g ∧ e' = e) := by
          intro k e e' q1 q2
          rw [set_get hd] at q2
          by_cases hk : k = g
          · subst hk
            rw [if_pos rfl] at q2
            rw [hd] at q1
            exact .inl ⟨rfl, (Option.some.inj q1).symm, (Option.some.inj q2).symm⟩
          · rw [if_neg hk, q1] at q2
            exact .inr ⟨hk, (Option.some.inj q2).symm⟩
        refine ⟨hs1.v, ht0.r, V, k1, ⟨k2.b.data (by simp) ?_ ?_, ⟨fun b c hc => ⟨(k2.use.bins b c hc).pres, (k2.use.bins b c hc).nodup⟩,
          fun c hc => ⟨⟨(k2.use.long c hc).1.pres, (k2.use.long c hc).1.nodup⟩, (k2.use.long c hc).2⟩⟩, k2.unsat, k2.asm⟩⟩
        · intro k e e' q1 q2
          rcases hpick k e e' q1 q2 with ⟨rfl, rfl, rfl⟩ | ⟨_, rfl⟩
          · refine ⟨hd2.1, hd2.2.1, fun hx => ?_⟩
            rw [(h.v.gs k v).2 hg] at hx; cases hx
          · exact ⟨rfl, rfl, fun _ => rfl⟩
        · intro _ _ l _ e e' q1 q2 q3
          rcases hpick l.var e e' q1 q2 with ⟨_, rfl, rfl⟩ | ⟨_, rfl⟩
          · rw [hd2.2.2]; exact q3
          · exact q3
      have hdata : (({ s with vars := { s.vars with data := s.vars.data.set g d1 } } : St α).vars.gfs.map v).bind
          (St.data? { s with vars := { s.vars with data := s.vars.data.set g d1 } }) = some d1 := by
        show (s.vars.gfs.map v).bind _ = _
        rw [hg]; exact hget
      rw [hdata] at ho
      simp only at ho
      by_cases hc : (d1.isolated && !d1.assumed) = true
      · rw [if_pos hc] at ho
        simp only [Bool.and_eq_true, Bool.not_eq_true'] at hc
        obtain ⟨x, q, L, e1, e2, e3⟩ := hs1.removeSolverVar ht hg hget hc.1 hc.2 (by
          intro b hb
          have hb : s.p.value v = some b := hb
          rw [hd1, hb]; rfl)
        have ht2 := ht1.removeSolverVar (s := { s with vars := { s.vars with data := s.vars.data.set g d1 } }) hg hget ?_ ?_ ?_ e1
        · rw [e1, ok_bind] at ho
          exact Tracked.removeLoop vs ht2 e2 ht hdc ho
        · intro b
          constructor
          · rintro ⟨⟨hb, _⟩, _⟩
            have hb : s.p.isTrue (Lit.mk' v b) = true := hb
            rw [Pt.isTrue_iff] at hb
            have hb : s.p.value v = some b := by simpa using hb
            rw [hd1, hb]; rfl
          · intro hb
            have := hcore.unit v g d1 b hg hget hb
            exact ⟨this, ht0.r _ this⟩
        · intro r k hpos l hl hlv
          refine hcore.iso v g d1 hg hget hc.1 ?_
          by_cases hk2 : k.length = 2
          · match k, hk2 with
            | [b, c], _ =>
              have hcm : c ∈ s.bins.byLit b.neg := by
                cases r
                · simpa [stored, List.count_pos_iff] using hpos
                · simp [stored] at hpos
              simp only [List.mem_cons, List.not_mem_nil, or_false] at hl
              rcases hl with rfl | rfl
              · exact .inr ⟨c.neg, l.neg.neg, h.core.c.binSym _ _ hcm, by simpa using hlv⟩
              · exact .inr ⟨_, _, hcm, hlv⟩
          · rw [stored_long hk2, List.countP_pos_iff] at hpos
            obtain ⟨c, hci, hx⟩ := hpos
            simp only [Bool.and_eq_true, decide_eq_true_eq] at hx
            exact .inl ⟨c, Db.mem_iter.1 hci, l, hx.2.mem_iff.2 hl, hlv⟩
        · intro l hl hlv
          obtain ⟨g', d', q1, q2, q3, _⟩ := hs1.asm l hl
          have q1 : s.vars.gfs.map l.var = some g' := q1
          rw [hlv, hg] at q1
          obtain rfl := Option.some.inj q1
          rw [hget] at q2
          obtain rfl := Option.some.inj q2
          rw [hc.2] at q3; cases q3
      · rw [if_neg hc] at ho
        exact Tracked.removeLoop vs ht1 hs1 ht hdc ho

theorem Db.iter_iter (db : Db α) : Db.iter { db with clauses := db.iter } = db.iter := by
  unfold Db.iter
  simp

/-- `prove_units` and `unit_simplify` after propagation in level 0. -/
theorem Tracked1.simplify (h : Tracked1 a s) (hi : SInv F A ids s) (h2 : Prop2 s.bins.byLit s.db s.p)
    (hq : s.p.qhead = s.p.trail.length) (hd : s.p.decisions = []) {s1 s2 : St α} {b : Bool} (ho1 : s.proveUnits = .ok (s1, b))
    (ho2 : (if b then s1.unitSimplify else .ok s1) = .ok s2) : Tracked a s2 := by
  have t1 := h.proveUnits hi.core.c hd ho1
  obtain ⟨q, L, e1, e2, e3, e4, e5, e6, e7⟩ := St.proveUnits_zero hi.core.c.tr hd hi.core.c.pres
  cases b with
  | false =>
    rw [if_neg (by simp)] at ho2
    cases ho2
    exact t1
  | true =>
    rw [if_pos rfl] at ho2
    rw [e1] at ho1
    obtain ⟨rfl, hb⟩ := Prod.mk.inj (Except.ok.inj ho1)
    have hlo : Loose F ids s.bins.byLit s.db s.vars q := hi.core.loose h2 hq hd e2 e3 e4 e5
    obtain ⟨b1, L1, f1, f2, f3⟩ := St.simplifyBinary_ok (s := { s with p := q, log := L }) hlo
    have t2 := t1.simplifyBinary (s := { s with p := q, log := L }) hlo hi.q.count f1
    have t3 : Tracked a { s with p := q, bins := b1, w := s.w.disable, log := L1 } :=
      t2.change rfl rfl rfl rfl rfl Iff.rfl t2.r fun _ => Iff.rfl
    obtain ⟨b2, db2, L2, ks, g1, g2, g3, g4, g5, g6, g7⟩ := St.filterLoop_ok s.db.clauses
      (s := { s with
        p := q
        bins := b1
        w := s.w.disable
        log := L1 }) f2 f3 (fun _ hc => hc) hlo.dbi.nodup
    have t4 := Tracked.filterLoop s.db.clauses t3 f2 f3 (fun _ hc => hc) hlo.dbi.nodup g1
    have hks : ks = db2.iter := by rw [g6]; unfold Db.iter; rw [g4]
    have hcore2 : Core F ids b2.byLit s.w.disable db2 s.vars q := by
      refine g2.core rfl ?_
      rintro v (⟨c, hc, l, hl, rfl⟩ | ⟨l, m, hm, rfl⟩)
      · exact g7 c (by have := hc.1; rw [g4] at this; exact this) hc l hl
      · exact g3 l m hm
    obtain ⟨i1, i2⟩ := Db.iter_same hcore2.dbi
    have hcore3 : Core F ids b2.byLit s.w.disable { db2 with clauses := db2.iter } s.vars q :=
      (i2.map q).core hcore2 i1 (by intro he; cases he)
    have hs3 : SInv F A ids { s with
        p := q
        bins := b2
        w := s.w.disable
        db := { db2 with clauses := ks }
        log := L2 } := by
      refine ⟨hi.v, hi.q.mono (fun v _ hn => by rw [← e3]; exact hn), hi.fl, hi.asm, by rw [hks]; exact hcore3, ?_, hi.as⟩
      intro i hi
      have hi : i < q.decisions.length := hi
      rw [e5] at hi; simp at hi
    have t5 : Tracked a { s with
        p := q
        bins := b2
        w := s.w.disable
        db := { db2 with clauses := ks }
        log := L2 } := by
      obtain ⟨V, k1, k2⟩ := t4.view
      have hit : Db.iter { db2 with clauses := ks } = db2.iter := by rw [hks]; exact Db.iter_iter db2
      refine ⟨t4.v, t4.r, V, k1, ⟨k2.b.congr fun r k _ _ => ?_, ?_, k2.unsat, k2.asm⟩⟩
      · exact stored_congr (db := db2) (db' := { db2 with clauses := ks }) (List.Perm.of_eq hit) (fun c _ => ⟨Iff.rfl, List.Perm.refl _⟩) r k
      · exact k2.use.congr (fun c hc => by rw [hit] at hc; exact hc) fun c _ => List.Perm.refl _
    unfold St.unitSimplify at ho2
    rw [f1, ok_bind] at ho2
    simp only at ho2
    rw [g1, ok_bind] at ho2
    exact Tracked.removeLoop _ t5 hs3 e4 e5 ho2

end Varisat.Solver
