import Verif.Proof.Solver.Load
/-!
# `load_clause` and `set_assumptions`
-/
namespace Varisat.Solver
open Api (Abs)

variable {α : Type} [LinearOrder α]
variable {F F' : List (List Lit)} {A : List Lit} {ids : Nat → Nat}

/-- What `load_clause` leaves. -/
structure Loaded (F' : List (List Lit)) (A : List Lit) (ids : Nat → Nat) (s s' : St α) : Prop where
  base : Base F' A ids s'
  zero : Zero s'.p
  asm : s'.asm = s.asm
  sat : s'.sat = s.sat ∨ (s'.sat = .unsat ∧ Unsat F')
  vars : ∃ D, s'.vars = { s.vars with data := D } ∧ DataLe s.vars D ∧
    ∀ (g : Nat) (d' : VarData), D[g]? = some d' → ∃ d : VarData, s.vars.data[g]? = some d ∧ d'.assumed = d.assumed

theorem DataLe.refl (x : Vars) : DataLe x x.data :=
  ⟨fun _ d h => ⟨d, h, rfl, rfl, rfl, id⟩, fun _ d h => ⟨d, h, rfl, rfl, rfl⟩⟩

/-- The end of `load_clause`. -/
theorem Base.storeClause {s : St α} (h : Base F A ids s) (hs : s.sat ≠ .unsat) (hs2 : s.sat ≠ .sat) (hz : Zero s.p)
    (e : Env α) {kept fls c : List Lit} (hk : ∀ l ∈ kept, s.p.value l.var = none)
    (hf : ∀ l ∈ fls, s.p.isFalse l = true) (hnd : ((kept ++ fls).map Lit.var).Nodup)
    (hv : ∀ l ∈ kept ++ fls, s.vars.pres l.var ∧ s.p.Att l.var)
    (hiso : 1 < (kept ++ fls).length → ∀ l ∈ kept ++ fls, ∀ g d, s.vars.gfs.map l.var = some g → s.vars.data[g]? = some d → d.isolated = false)
    (hF : ∀ τ, cnfSat τ F' ↔ cnfSat τ F ∧ clauseSat τ c)
    (hc : ∀ (τ σ : Asg), (∀ g, s.vars.Live g → τ (ids g) = σ g) → (clauseSat τ c ↔ clauseSat (lift s.vars s.p σ) (kept ++ fls))) :
    ∃ s', s.storeClause e kept.isEmpty (kept ++ fls) = .ok s' ∧ Loaded F' A ids s s' ∧ s'.formulaEmpty = s.formulaEmpty := by
  obtain ⟨hcore, hp2⟩ := h.run hs
  have bad : Unsat F' → Loaded F' A ids s { s with sat := .unsat } := by
    intro hu
    exact ⟨⟨h.v, h.q, h.fl, h.l0, h.inj, h.hidA, (fun h => absurd rfl h), (fun h => by cases h)⟩, hz, rfl, .inr ⟨rfl, hu⟩,
      ⟨s.vars.data, rfl, .refl _, fun _ d h => ⟨d, h, rfl⟩⟩⟩
  have hlits : ∃ lits, lits = kept ++ fls := ⟨_, rfl⟩
  obtain ⟨lits, hlits⟩ := hlits
  have h1' : ∀ τ, cnfSat τ F' → cnfSat τ F ∧ clauseSat (lift s.vars s.p (fun g => τ (ids g))) lits := by
    intro τ hτ
    obtain ⟨a, b⟩ := (hF τ).1 hτ
    refine ⟨a, ?_⟩
    rw [hlits]
    exact (hc τ _ (fun _ _ => rfl)).1 b
  have h2' : ∀ σ, clauseSat (lift s.vars s.p σ) lits → ∀ τ, cnfSat τ F → (∀ g, s.vars.Live g → τ (ids g) = σ g) → cnfSat τ F' := by
    intro σ hσ τ hτ hg
    rw [hlits] at hσ
    exact (hF τ).2 ⟨hτ, (hc τ σ hg).2 hσ⟩
  rw [← hlits] at hnd hv hiso ⊢
  match lits, hlits with
  | [], hl =>
    refine ⟨_, rfl, bad ?_, rfl⟩
    intro τ hτ
    have := (h1' τ hτ).2
    simp [clauseSat] at this
  | [l], hl =>
    unfold St.storeClause
    simp only
    cases kept with
    | nil =>
      have hfl : s.p.isFalse l = true := hf l (by simp at hl; simp [← hl])
      simp only [List.isEmpty_nil, if_true]
      refine ⟨_, rfl, bad ?_, rfl⟩
      intro τ hτ
      obtain ⟨a, b⟩ := h1' τ hτ
      obtain ⟨_, hr, _⟩ := hcore.s1 τ a
      have := hr l.neg ((Pt.root_level0 hcore.c.tr hz.1).2 (by rw [Pt.isTrue_neg]; exact hfl))
      rw [Lit.holds_neg] at this
      rw [clauseSat_singleton] at b
      exact this b
    | cons l' ks =>
      obtain ⟨rfl, hl2⟩ := List.cons.inj hl
      have hu : s.p.value l.var = none := hk l (by simp)
      simp only [List.isEmpty_cons, Bool.false_eq_true, if_false]
      refine ⟨_, rfl, ⟨⟨h.v, h.q.mono ?_, h.fl, h.l0.enqueue _ _, h.inj, h.hidA, fun _ => ⟨?_, Prop2.nil hz.2⟩, fun h => absurd h hs2⟩, hz, rfl, .inl rfl,
        ⟨s.vars.data, rfl, .refl _, fun _ d h => ⟨d, h, rfl⟩⟩⟩, rfl⟩
      · intro v _ hn
        by_cases hv : v = l.var
        · rw [hv]; exact hu
        · rw [← hn]; exact (Pt.enqueue_value_ne hv).symm
      · refine hcore.enqueue hu (hv l (by simp)).1 ?_ ?_ ?_
        · simp only
          unfold Pt.curLevel; rw [hz.1]; rfl
        · intro τ hτ
          obtain ⟨a, b⟩ := h1' τ hτ
          exact ⟨a, fun _ => clauseSat_singleton.1 b⟩
        · intro σ hσ τ hτ hg
          exact h2' σ (clauseSat_singleton.2 (hσ (by unfold Pt.curLevel; rw [hz.1]; rfl))) τ hτ hg
  | [l0, l1], hl =>
    unfold St.storeClause
    simp only
    refine ⟨_, rfl, ⟨⟨h.v, h.q, h.fl, h.l0, h.inj, h.hidA, fun _ => ⟨?_, Prop2.nil hz.2⟩, fun h => absurd h hs2⟩, hz, rfl, .inl rfl,
        ⟨s.vars.data, rfl, .refl _, fun _ d h => ⟨d, h, rfl⟩⟩⟩, rfl⟩
    refine hcore.addBin (fun l m => Bins.mem_add) ?_ (hv l0 (by simp)) (hv l1 (by simp)) ?_ h1' h2'
    · simpa using hnd
    · rintro l (rfl | rfl)
      · exact hiso (by simp) l (by simp)
      · exact hiso (by simp) l (by simp)
  | l0 :: l1 :: l2 :: ls, hl =>
    unfold St.storeClause
    simp only
    obtain ⟨db', w', e1, e2, _⟩ := hcore.addLong (F' := F') (hd := { tier := .irred, activity := e.car.zero }) rfl rfl (fun _ => rfl)
      (lits := l0 :: l1 :: l2 :: ls) (by simp) hnd hv (hiso (by simp)) h1' (fun σ hσ => h2' σ (hσ rfl))
    rw [e1]
    exact ⟨_, rfl, ⟨⟨h.v, h.q, h.fl, h.l0, h.inj, h.hidA, fun _ => ⟨e2, Prop2.nil hz.2⟩, fun h => absurd h hs2⟩, hz, rfl, .inl rfl,
        ⟨s.vars.data, rfl, .refl _, fun _ d h => ⟨d, h, rfl⟩⟩⟩, rfl⟩

theorem nodup_vars {ls : List Lit} (h : ls.Nodup) (ht : ¬ ∃ l ∈ ls, l.neg ∈ ls) : (ls.map Lit.var).Nodup := by
  rw [List.nodup_iff_pairwise_ne, List.pairwise_map]
  refine List.Pairwise.imp_of_mem ?_ h
  intro a b ha hb hne he
  rcases Lit.eq_or_eq_neg he with h1 | h1
  · exact hne h1
  · exact ht ⟨b, hb, by rw [← h1]; exact ha⟩

theorem SSorted.nodup {ls : List Lit} (h : SSorted ls) : ls.Nodup :=
  h.imp (fun {a b} hab he => by rw [he] at hab; exact Nat.lt_irrefl _ hab)

/-- `load_clause` after the conversion to solver literals. -/
theorem Base.loadLits {s : St α} (h : Base F A ids s) (hs : s.sat ≠ .unsat) (hs2 : s.sat ≠ .sat) (hz : Zero s.p)
    (e : Env α) {ms c : List Lit} (hp : ∀ l ∈ ms, s.vars.pres l.var)
    (hF : ∀ τ, cnfSat τ F' ↔ cnfSat τ F ∧ clauseSat τ c)
    (hc : ∀ (τ σ : Asg) (p : Pt), (∀ g, s.vars.Live g → τ (ids g) = σ g) → (clauseSat τ c ↔ clauseSat (lift s.vars p σ) ms)) :
    ∃ s', s.loadLits e ms = .ok s' ∧ Loaded F' A ids s s' ∧ s'.formulaEmpty = s.formulaEmpty := by
  obtain ⟨ls, hls⟩ : ∃ ls, ls = dedupLits (sortLits ms) := ⟨_, rfl⟩
  have hmem : ∀ l, l ∈ ls ↔ l ∈ ms := fun l => by rw [hls, mem_dedupLits, mem_sortLits]
  have hss : SSorted ls := by rw [hls]; exact dedupLits_ssorted (sortLits_sorted ms)
  have hpl : ∀ l ∈ ls, s.vars.pres l.var := fun l hl => hp l ((hmem l).1 hl)
  have hcl : ∀ (τ σ : Asg) (p : Pt), (∀ g, s.vars.Live g → τ (ids g) = σ g) → (clauseSat τ c ↔ clauseSat (lift s.vars p σ) ls) := by
    intro τ σ p hg
    rw [hc τ σ p hg]
    exact ⟨clauseSat_mono (fun l hl => (hmem l).2 hl), clauseSat_mono (fun l hl => (hmem l).1 hl)⟩
  obtain ⟨L, hL⟩ := St.emit_ok (s := s) (x := .addClause ls) hpl
  obtain ⟨hcore, hp2⟩ := h.run hs
  unfold St.loadLits
  simp only
  rw [← hls, hL, ok_bind]
  -- the formula is unchanged when the clause always holds
  have keep : ∀ (D : List VarData) (L : List ProofStep) (p : Pt),
      DataLe s.vars D → (∀ (g : Nat) (d' : VarData), D[g]? = some d' → ∃ d : VarData, s.vars.data[g]? = some d ∧ d'.assumed = d.assumed) →
      Base F A ids { s with vars := { s.vars with data := D }, p := p, log := L } → Zero p →
      (∀ τ, cnfSat τ F → clauseSat τ c) →
      Loaded F' A ids s { s with vars := { s.vars with data := D }, p := p, log := L } := by
    intro D L p hD hA hb hzp hcl
    have hFF : ∀ τ, cnfSat τ F' ↔ cnfSat τ F := fun τ => (hF τ).trans ⟨fun h => h.1, fun h => ⟨h, hcl τ h⟩⟩
    refine ⟨⟨hb.v, hb.q, hb.fl, hb.l0, hb.inj, hb.hidA, fun hu => ?_, fun h => absurd h hs2⟩, hzp, rfl, .inl rfl, ⟨D, rfl, hD, hA⟩⟩
    obtain ⟨a, b⟩ := hb.run hu
    exact ⟨⟨a.c, a.wok, a.dbi, fun τ hτ => a.s1 τ ((hFF τ).1 hτ),
      fun σ hσ => by obtain ⟨τ, k1, k2⟩ := a.s2 σ hσ; exact ⟨τ, (hFF τ).2 k1, k2⟩, a.unit, a.iso⟩, b⟩
  by_cases ht : tautScan none ls = true
  · rw [if_pos ht]
    obtain ⟨l, hl1, hl2⟩ := (tautScan_none hss).1 ht
    refine ⟨_, rfl, keep s.vars.data L s.p (.refl _) (fun _ d h => ⟨d, h, rfl⟩) (h.log L) hz ?_, rfl⟩
    intro τ hτ
    obtain ⟨σ, hσ⟩ : ∃ σ : Asg, σ = fun g => τ (ids g) := ⟨_, rfl⟩
    refine (hcl τ σ s.p (fun g _ => by rw [hσ])).2 ?_
    by_cases hh : l.holds (lift s.vars s.p σ)
    · exact ⟨l, hl1, hh⟩
    · exact ⟨l.neg, hl2, (Lit.holds_neg _ _).2 hh⟩
  · rw [if_neg ht]
    have hnt : ¬ ∃ l ∈ ls, l.neg ∈ ls := fun hx => ht ((tautScan_none hss).2 hx)
    -- the part after the update of `isolated`
    have rest : ∀ (D : List VarData), DataLe s.vars D →
        (∀ (g : Nat) (d' : VarData), D[g]? = some d' → ∃ d : VarData, s.vars.data[g]? = some d ∧ d'.assumed = d.assumed) →
        Base F A ids { s with vars := { s.vars with data := D }, log := L } →
        (1 < ls.length → ∀ l ∈ ls, ∀ (g : Nat) (d : VarData), s.vars.gfs.map l.var = some g → D[g]? = some d → d.isolated = false) →
        ∃ s', (let t : St α := { s with vars := { s.vars with data := D }, log := L }
          let r := St.scanLits t.p ls
          let t := { t with p := r.2.1.foldl (fun p l => p.resurrect l.neg) t.p }
          let lits := r.1 ++ r.2.1
          if r.2.2 = true then
            if lits.length > 1 then t.emit (.deleteClause lits .satisfied) else pure t
          else t.storeClause e r.1.isEmpty lits) = Except.ok s' ∧ Loaded F' A ids s s' ∧ s'.formulaEmpty = s.formulaEmpty := by
      intro D hD hA hb hiso
      simp only
      obtain ⟨sc1, sc2, sc3, sc4⟩ := scanLits_spec s.p ls
      generalize hr : St.scanLits s.p ls = r at sc1 sc2 sc3 sc4
      obtain ⟨kept, fls, found⟩ := r
      simp only at sc1 sc2 sc3 sc4 ⊢
      obtain ⟨b1, b2⟩ := hb.run hs
      have hpx : ∀ l ∈ ls, Vars.pres { s.vars with data := D } l.var := hpl
      obtain ⟨r1, r2, r3, r4, r5⟩ := Core.resurrectAll fls b1 hz (fun l hl => ⟨(sc2 l hl).2, hpx l (sc2 l hl).1⟩)
      generalize fls.foldl (fun p l => p.resurrect l.neg) s.p = p at r1 r2 r3 r4 r5
      have hb' : Base F A ids { s with vars := { s.vars with data := D }, p := p, log := L } := by
        refine ⟨hb.v, hb.q.mono (fun v _ hv => by rw [← r3]; exact hv), hb.fl, .inl r2, hb.inj, hb.hidA, fun _ => ⟨r1, Prop2.nil r2.2⟩,
          fun h => absurd h hs2⟩
      by_cases hfound : found = true
      · rw [if_pos hfound]
        have hall : ∀ τ, cnfSat τ F → clauseSat τ c := by
          intro τ hτ
          obtain ⟨l, hl1, hl2⟩ := sc3 hfound
          refine (hcl τ (fun g => τ (ids g)) s.p (fun g _ => rfl)).2 ⟨l, hl1, ?_⟩
          exact (hcore.s1 τ hτ).root l ((Pt.root_level0 hcore.c.tr hz.1).2 hl2)
        by_cases hlen : (kept ++ fls).length > 1
        · rw [if_pos hlen]
          obtain ⟨L', hL'⟩ := St.emit_ok (s := { s with vars := { s.vars with data := D }, p := p, log := L })
            (x := .deleteClause (kept ++ fls) .satisfied) (by
              intro l hl
              rcases List.mem_append.1 hl with h1 | h1
              · exact hpx l (sc1 l h1)
              · exact hpx l (sc2 l h1).1)
          rw [hL']
          exact ⟨_, rfl, keep D L' p hD hA (hb'.log L') r2 hall, rfl⟩
        · rw [if_neg hlen]
          exact ⟨_, rfl, keep D L p hD hA hb' r2 hall, rfl⟩
      · rw [if_neg hfound]
        obtain ⟨k1, k2⟩ := sc4 (by simpa using hfound)
        obtain ⟨s', g1, g2, g3⟩ := hb'.storeClause (F' := F') (c := c) hs hs2 r2 e (kept := kept) (fls := fls)
          (fun l hl => by show p.value l.var = none; rw [r3]; exact k1 l hl)
          (fun l hl => by show p.isFalse l = true; unfold Pt.isFalse; rw [r3]; exact (sc2 l hl).2)
          ((k2.map Lit.var).nodup_iff.2 (nodup_vars hss.nodup hnt))
          (by
            intro l hl
            refine ⟨hpx l (k2.mem_iff.1 hl), ?_⟩
            rcases List.mem_append.1 hl with h1 | h1
            · intro hv
              exfalso
              change p.value l.var ≠ none at hv
              rw [r3] at hv
              exact hv (k1 l h1)
            · exact r4 l h1)
          (by
            intro hlen l hl g d h1 h2
            rw [k2.length_eq] at hlen
            exact hiso hlen l (k2.mem_iff.1 hl) g d h1 h2)
          hF
          (by
            intro τ σ hg
            rw [clauseSat_perm k2]
            exact hcl τ σ p (fun g hgl => hg g (hD.live.2 hgl)))
        refine ⟨s', g1, ⟨g2.base, g2.zero, g2.asm, g2.sat, ?_⟩, g3⟩
        obtain ⟨D', f1, f2, f3⟩ := g2.vars
        refine ⟨D', f1, ⟨?_, ?_⟩, ?_⟩
        · intro g d' h1
          obtain ⟨d1, h2, h3, h4, h5, h6⟩ := f2.some_ g d' h1
          obtain ⟨d2, h7, h8, h9, h10, h11⟩ := hD.some_ g d1 h2
          exact ⟨d2, h7, h3.trans h8, h4.trans h9, h5.trans h10, fun h => h11 (h6 h)⟩
        · intro g d h1
          obtain ⟨d1, h2, h3, h4, h5⟩ := hD.none_ g d h1
          obtain ⟨d2, h7, h8, h9, h10⟩ := f2.none_ g d1 h2
          exact ⟨d2, h7, h8.trans h3, h9.trans h4, h10.trans h5⟩
        · intro g d' h1
          obtain ⟨d1, h2, h3⟩ := f3 g d' h1
          obtain ⟨d2, h4, h5⟩ := hA g d1 h2
          exact ⟨d2, h4, h3.trans h5⟩
    by_cases hlen : ls.length > 1
    · rw [if_pos hlen]
      obtain ⟨D, e1, e2⟩ := St.updLoop_ok (f := fun d => { d with isolated := false }) ls (s := { s with log := L }) h.v hpl
        (fun d => ⟨rfl, rfl⟩) (fun d => rfl)
      have hDle : DataLe s.vars D := DataLe.upd (f := fun d => { d with isolated := false })
        (P := fun k => ∃ l ∈ ls, s.vars.gfs.map l.var = some k) (fun d => ⟨rfl, rfl, rfl, fun h => by cases h⟩) e2
      have hsrc : ∀ (g : Nat) (d' : VarData), D[g]? = some d' → ∃ d : VarData, s.vars.data[g]? = some d ∧
          d'.assumed = d.assumed ∧ d'.mode = d.mode ∧ ((∃ l ∈ ls, s.vars.gfs.map l.var = some g) → d'.isolated = false) := by
        intro g d' h1
        rw [e2 g] at h1
        by_cases hP : ∃ l ∈ ls, s.vars.gfs.map l.var = some g
        · rw [if_pos hP] at h1
          simp only at h1
          cases h2 : s.vars.data[g]? with
          | none => rw [h2] at h1; cases h1
          | some d =>
            rw [h2] at h1
            obtain rfl := Option.some.inj h1
            exact ⟨d, rfl, rfl, rfl, fun _ => rfl⟩
        · rw [if_neg hP] at h1; exact ⟨d', h1, rfl, rfl, fun h => absurd h hP⟩
      rw [St.clearIsolated_eq, e1, ok_bind]
      refine rest D hDle (fun g d' h1 => ?_) ((h.log L).dataLe hDle ?_) ?_
      · obtain ⟨d, h2, h3, _⟩ := hsrc g d' h1; exact ⟨d, h2, h3⟩
      · intro g d' h1 h2
        obtain ⟨d, h3, h4, h5, _⟩ := hsrc g d' h1
        rw [h4]; exact h.hidA g d h3 (by rw [← h5]; exact h2)
      · intro _ l hl g d h1 h2
        obtain ⟨_, _, _, _, h3⟩ := hsrc g d h2
        exact h3 ⟨l, hl, h1⟩
    · rw [if_neg hlen]
      exact rest s.vars.data (.refl _) (fun _ d h => ⟨d, h, rfl⟩) (h.log L) (fun h => absurd h hlen)

end Varisat.Solver
