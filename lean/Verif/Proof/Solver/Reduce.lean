import Verif.Proof.Solver.Db
import Mathlib.Data.List.Sort
/-!
# Reduction of the clause database
-/
namespace Varisat.Solver
namespace Db

variable {α : Type} [LinearOrder α]

/-- What `dedup_and_mark_by_tier` does. -/
theorem dedupMark_spec (t : Tier) : ∀ (L : List Nat) (db : Db α), ∃ ks : List Nat,
    dedupMark t L db = ({ db with hdr := fun c => if c ∈ ks then { db.hdr c with mark := true } else db.hdr c }, ks) ∧
    ks.Nodup ∧ ∀ c, c ∈ ks ↔ c ∈ L ∧ (db.hdr c).deleted = false ∧ (db.hdr c).mark = false ∧ (db.hdr c).tier = t
  | [], db => ⟨[], by simp [dedupMark], by simp, by simp⟩
  | x :: L, db => by
    rw [dedupMark]
    simp only
    split
    · rename_i hx
      simp only [Bool.and_eq_true, Bool.not_eq_true', beq_iff_eq] at hx
      obtain ⟨ks, h1, h2, h3⟩ := dedupMark_spec t L (db.setMark x true)
      rw [h1]
      have hxk : x ∉ ks := by
        rw [h3]; simp [setMark]
      refine ⟨x :: ks, ?_, by simp [h2, hxk], ?_⟩
      · simp only [Prod.mk.injEq, and_true]
        unfold setMark
        simp only
        congr 1
        funext c
        by_cases hc : c = x
        · subst hc; simp [hxk]
        · simp [put_ne _ _ hc, hc]
      · intro c
        rw [List.mem_cons, h3]
        by_cases hc : c = x
        · subst hc; simp [hx]
        · simp [setMark, put_ne _ _ hc, hc]
    · rename_i hx
      obtain ⟨ks, h1, h2, h3⟩ := dedupMark_spec t L db
      refine ⟨ks, h1, h2, fun c => ?_⟩
      rw [h3, List.mem_cons]
      constructor
      · rintro ⟨a, b⟩; exact ⟨.inr a, b⟩
      · rintro ⟨a | a, b, b2, b3⟩
        · subst a; simp [b, b2, b3] at hx
        · exact ⟨a, b, b2, b3⟩

/-- The live clauses of a tier, as `dedup_and_mark_by_tier` finds them. -/
theorem dedupMark_live {db : Db α} (h : DbInv db) (t : Tier) : ∃ ks : List Nat,
    dedupMark t (db.byTier t) db =
      ({ db with hdr := fun c => if c ∈ ks then { db.hdr c with mark := true } else db.hdr c }, ks) ∧
    ks.Nodup ∧ ∀ c, c ∈ ks ↔ db.Live c ∧ (db.hdr c).tier = t := by
  obtain ⟨ks, h1, h2, h3⟩ := dedupMark_spec t (db.byTier t) db
  refine ⟨ks, h1, h2, fun c => ?_⟩
  rw [h3]
  constructor
  · rintro ⟨a, b, b2, b3⟩
    rcases (h.tierOk t c a).2 with h4 | h4
    · exact ⟨⟨h4, b⟩, b3⟩
    · rw [h4] at b; cases b
  · rintro ⟨a, b⟩
    exact ⟨b ▸ h.tier c a, a.2, h.mark c a, b⟩

/-- Number of live clauses in a tier from a list of them. -/
theorem countP_of_list {db : Db α} (hn : db.clauses.Nodup) {t : Tier} {ks : List Nat} (hk : ks.Nodup)
    (hm : ∀ c, c ∈ ks ↔ db.Live c ∧ (db.hdr c).tier = t) : db.clauses.countP (db.inTier t) = ks.length := by
  rw [List.countP_eq_length_filter]
  apply List.Perm.length_eq
  rw [List.perm_ext_iff_of_nodup (hn.filter _) hk]
  intro c
  rw [hm, List.mem_filter]
  unfold Live inTier
  simp only [Bool.and_eq_true, Bool.not_eq_true', decide_eq_true_eq]
  exact and_assoc.symm

/-- What the loop of `reduce_locals` does. -/
theorem reduceLoop_spec (p : Pt) (k : Nat → Nat → Bool) : ∀ (cs : List Nat) (todo : Nat) (db : Db α) (w : Wl), cs.Nodup →
    (∀ c ∈ cs, db.lits c ≠ []) → (∀ c ∈ cs, (db.hdr c).tier = .local_) → cs.Pairwise (fun a b => k a b = true) →
    ∃ (cnt : Tier → Nat) (w' : Wl) (kept dels : List Nat),
      reduceLoop p todo cs db w = some ({ db with
        hdr := fun c => if c ∈ dels then { db.hdr c with mark := false, deleted := true }
          else if c ∈ kept then { db.hdr c with mark := false } else db.hdr c
        count := cnt
        garbage := db.garbage + (dels.map (fun c => headerLen + (db.lits c).length)).sum }, w', kept, dels) ∧
      (∀ t, t ≠ .local_ → cnt t = db.count t) ∧ (kept ++ dels).Perm cs ∧ dels.length ≤ todo ∧
      (∀ c ∈ dels, db.asserting p c = some false) ∧
      (∀ c ∈ dels, ∀ d ∈ kept, db.asserting p d = some false → k c d = true) ∧
      w' = (if dels = [] then w else w.disable) := by
  intro cs
  induction cs with
  | nil =>
    intro todo db w _ _ _ _
    exact ⟨db.count, w, [], [], by simp [reduceLoop], by simp⟩
  | cons c cs ih =>
    intro todo db w hn hl ht hk
    rw [List.nodup_cons] at hn
    rw [List.pairwise_cons] at hk
    rw [reduceLoop]
    simp only
    have hne : ∀ d ∈ cs, d ≠ c := by rintro d hd rfl; exact hn.1 hd
    have hh : ∀ d ∈ cs, (db.setMark c false).hdr d = db.hdr d := fun d hd => put_ne _ _ (hne d hd)
    have has : ∀ d, (db.setMark c false).asserting p d = db.asserting p d := fun d => rfl
    have keep : ∀ todo', todo' = todo ∨ db.asserting p c ≠ some false → todo' = todo → 
        (todo = 0 ∨ db.asserting p c ≠ some false) →
        ∃ (cnt : Tier → Nat) (w' : Wl) (kept dels : List Nat),
      (reduceLoop p todo' cs (db.setMark c false) w).map (fun r => (r.1, r.2.1, c :: r.2.2.1, r.2.2.2)) = some ({ db with
        hdr := fun c => if c ∈ dels then { db.hdr c with mark := false, deleted := true }
          else if c ∈ kept then { db.hdr c with mark := false } else db.hdr c
        count := cnt
        garbage := db.garbage + (dels.map (fun c => headerLen + (db.lits c).length)).sum }, w', kept, dels) ∧
      (∀ t, t ≠ .local_ → cnt t = db.count t) ∧ (kept ++ dels).Perm (c :: cs) ∧ dels.length ≤ todo ∧
      (∀ c ∈ dels, db.asserting p c = some false) ∧
      (∀ c ∈ dels, ∀ d ∈ kept, db.asserting p d = some false → k c d = true) ∧
      w' = (if dels = [] then w else w.disable) := by
      rintro todo' - rfl htd
      obtain ⟨cnt, w', kept, dels, h1, h2, h3, h4, h5, h6, h7⟩ := ih todo' (db.setMark c false) w hn.2
        (fun d hd => hl d (by simp [hd])) (fun d hd => by rw [hh d hd]; exact ht d (by simp [hd])) hk.2
      have hsub : ∀ d, d ∈ kept ∨ d ∈ dels → d ∈ cs := fun d hd => h3.mem_iff.1 (List.mem_append.2 hd)
      have hck : c ∉ kept := fun h => hn.1 (hsub c (.inl h))
      have hcd : c ∉ dels := fun h => hn.1 (hsub c (.inr h))
      refine ⟨cnt, w', c :: kept, dels, ?_, h2, h3.cons c, h4, h5, ?_, h7⟩
      · rw [h1]
        simp only [Option.map_some, Option.some.injEq, Prod.mk.injEq, and_true]
        unfold setMark
        simp only
        congr 1
        funext d
        by_cases hd : d = c
        · subst hd; simp [hck, hcd]
        · simp [put_ne _ _ hd, hd]
      · intro x hx d hd hda
        rcases List.mem_cons.1 hd with rfl | hd
        · rcases htd with rfl | htd
          · rw [List.length_eq_zero_iff.1 (Nat.le_zero.1 h4)] at hx; simp at hx
          · exact absurd hda htd
        · exact h6 x hx d hd hda
    by_cases h0 : todo = 0
    · rw [if_pos h0]; exact keep todo (.inl rfl) rfl (.inl h0)
    rw [if_neg h0]
    have hass : ∃ b, db.asserting p c = some b := by
      unfold asserting
      have := hl c (by simp)
      cases hlc : db.lits c with
      | nil => exact absurd hlc this
      | cons l ls => simp
    obtain ⟨b, hb⟩ := hass
    rw [has, hb]
    cases b with
    | true => exact keep todo (.inl rfl) rfl (.inr (by rw [hb]; simp))
    | false =>
      simp only
      have hh2 : ∀ d ∈ cs, ((db.setMark c false).delete c).hdr d = db.hdr d := by
        intro d hd
        unfold delete; simp only
        rw [put_ne _ _ (hne d hd), hh d hd]
      obtain ⟨cnt, w', kept, dels, h1, h2, h3, h4, h5, h6, h7⟩ := ih (todo - 1) ((db.setMark c false).delete c) w.disable hn.2
        (fun d hd => hl d (by simp [hd])) (fun d hd => by rw [hh2 d hd]; exact ht d (by simp [hd])) hk.2
      have hsub : ∀ d, d ∈ kept ∨ d ∈ dels → d ∈ cs := fun d hd => h3.mem_iff.1 (List.mem_append.2 hd)
      have hck : c ∉ kept := fun h => hn.1 (hsub c (.inl h))
      have hcd : c ∉ dels := fun h => hn.1 (hsub c (.inr h))
      refine ⟨cnt, w', kept, c :: dels, ?_, ?_, ?_, ?_, ?_, ?_, ?_⟩
      · rw [h1]
        simp only [Option.map_some, Option.some.injEq, Prod.mk.injEq, and_true]
        unfold delete setMark
        simp only [List.map_cons, List.sum_cons]
        congr 1
        · funext d
          by_cases hd : d = c
          · subst hd; simp [hck, hcd]
          · simp [put_ne _ _ hd, hd]
        · omega
      · intro t hte
        rw [h2 t hte]
        have : (db.hdr c).tier = .local_ := ht c (by simp)
        unfold delete setMark
        simp only [put_same, this]
        rw [put_ne _ _ hte]
      · exact List.perm_middle.trans (h3.cons c)
      · simp only [List.length_cons]; omega
      · intro d hd
        rcases List.mem_cons.1 hd with rfl | hd
        · exact hb
        · exact h5 d hd
      · intro x hx d hd hda
        rcases List.mem_cons.1 hx with rfl | hx
        · exact hk.1 d (hsub d (.inl hd))
        · exact h6 x hx d hd hda
      · rw [h7]; simp [Wl.disable]

/-- What reducing the local clauses guarantees: the deleted references. -/
structure Reduced (db : Db α) (p : Pt) (w : Wl) (db' : Db α) (w' : Wl) (dels : List Nat) : Prop where
  inv : DbInv db'
  nodup : dels.Nodup
  only : ∀ c ∈ dels, db.Live c ∧ (db.hdr c).tier = .local_ ∧ db.asserting p c = some false
  live : ∀ c, db'.Live c ↔ db.Live c ∧ c ∉ dels
  hdr : ∀ c, db'.Live c → db'.hdr c = db.hdr c
  lits : db'.lits = db.lits
  size : db'.size = db.size
  half : dels.length ≤ db.count .local_ / 2
  low : ∀ c ∈ dels, ∀ d, db'.Live d → (db.hdr d).tier = .local_ → db.asserting p d = some false →
    db.actLe c d = true
  w : w' = if dels = [] then w else w.disable

theorem actLe_trans (db : Db α) (a b c : Nat) (h1 : db.actLe a b = true) (h2 : db.actLe b c = true) :
    db.actLe a c = true := by
  unfold actLe at *
  simp only [decide_eq_true_eq] at *
  rcases h1 with h1 | ⟨h1, h1'⟩ <;> rcases h2 with h2 | ⟨h2, h2'⟩
  · exact .inl (lt_trans h1 h2)
  · exact .inl (h2 ▸ h1)
  · exact .inl (h1 ▸ h2)
  · exact .inr ⟨h1.trans h2, Nat.le_trans h1' h2'⟩

theorem actLe_total (db : Db α) (a b : Nat) : (db.actLe a b || db.actLe b a) = true := by
  unfold actLe
  simp only [Bool.or_eq_true, decide_eq_true_eq]
  rcases lt_trichotomy (db.hdr a).activity (db.hdr b).activity with h | h | h
  · exact .inl (.inl h)
  · rcases Nat.le_total a b with h2 | h2
    · exact .inl (.inr ⟨h, h2⟩)
    · exact .inr (.inr ⟨h.symm, h2⟩)
  · exact .inr (.inl h)

theorem reduceLocals_ok {db : Db α} (h : DbInv db) (hl : ∀ c, db.Live c → db.lits c ≠ []) (p : Pt) (w : Wl) :
    ∃ db' w' dels, db.reduceLocals p w = some (db', w', dels) ∧ Reduced db p w db' w' dels := by
  unfold reduceLocals
  obtain ⟨ks, h1, h2, h3⟩ := dedupMark_live h .local_
  rw [h1]
  simp only
  have hact : (({ db with
      hdr := fun c => if c ∈ ks then { db.hdr c with mark := true } else db.hdr c
      byTier := put db.byTier .local_ [] } : Db α)).actLe = db.actLe := by
    funext a b
    unfold actLe
    simp only
    congr 1
    have : ∀ c, (if c ∈ ks then { db.hdr c with mark := true } else db.hdr c).activity = (db.hdr c).activity := by
      intro c; split <;> rfl
    rw [this, this]
  rw [hact]
  have hperm := List.mergeSort_perm ks db.actLe
  have hsort := List.pairwise_mergeSort (le := db.actLe) (actLe_trans db) (actLe_total db) ks
  generalize hcs : ks.mergeSort db.actLe = cs at *
  have hmem : ∀ c, c ∈ cs ↔ db.Live c ∧ (db.hdr c).tier = .local_ := by
    intro c; rw [hperm.mem_iff, h3]
  have hnd : cs.Nodup := hperm.nodup_iff.2 h2
  obtain ⟨cnt, w', kept, dels, e1, e2, e3, e4, e5, e6, e7⟩ := reduceLoop_spec p db.actLe cs (cs.length / 2)
    { db with
      hdr := fun c => if c ∈ ks then { db.hdr c with mark := true } else db.hdr c
      byTier := put db.byTier .local_ [] } w hnd
    (fun c hc => hl c ((hmem c).1 hc).1)
    (fun c hc => by
      show (if c ∈ ks then { db.hdr c with mark := true } else db.hdr c).tier = .local_
      split <;> exact ((hmem c).1 hc).2) hsort
  rw [e1]
  simp only [Option.map_some, Option.some.injEq, Prod.mk.injEq]
  refine ⟨_, _, _, ⟨rfl, rfl, rfl⟩, ?_⟩
  have hnd2 : (kept ++ dels).Nodup := e3.nodup_iff.2 hnd
  rw [List.nodup_append] at hnd2
  have hkm : ∀ c, c ∈ kept ∨ c ∈ dels ↔ db.Live c ∧ (db.hdr c).tier = .local_ := by
    intro c; rw [← List.mem_append, e3.mem_iff, hmem]
  have hdisj : ∀ c, c ∈ kept → c ∉ dels := fun c a b => hnd2.2.2 c a c b rfl
  -- the final header of each clause
  have hH : ∀ c, (if c ∈ dels then { (if c ∈ ks then { db.hdr c with mark := true } else db.hdr c) with
        mark := false, deleted := true }
      else if c ∈ kept then { (if c ∈ ks then { db.hdr c with mark := true } else db.hdr c) with mark := false }
      else if c ∈ ks then { db.hdr c with mark := true } else db.hdr c) =
      if c ∈ dels then { db.hdr c with mark := false, deleted := true } else db.hdr c := by
    intro c
    by_cases hd : c ∈ dels
    · rw [if_pos hd, if_pos hd]; split <;> rfl
    · rw [if_neg hd, if_neg hd]
      by_cases hk : c ∈ kept
      · rw [if_pos hk]
        have hlv := (hkm c).1 (.inl hk)
        have hmk := h.mark c hlv.1
        have : c ∈ ks := (h3 c).2 hlv
        rw [if_pos this]
        cases hx : db.hdr c
        rw [hx] at hmk
        simp only at hmk
        subst hmk
        rfl
      · rw [if_neg hk]
        have : c ∉ ks := by
          rw [h3, ← hkm]; simp [hk, hd]
        rw [if_neg this]
  have hH' : (fun c => if c ∈ dels then { (if c ∈ ks then { db.hdr c with mark := true } else db.hdr c) with
        mark := false, deleted := true }
      else if c ∈ kept then { (if c ∈ ks then { db.hdr c with mark := true } else db.hdr c) with mark := false }
      else if c ∈ ks then { db.hdr c with mark := true } else db.hdr c) =
      fun c => if c ∈ dels then { db.hdr c with mark := false, deleted := true } else db.hdr c := funext hH
  simp only [hH']
  have hput : put (put db.byTier .local_ []) .local_ kept = put db.byTier .local_ kept := by
    funext t; unfold put; split <;> rfl
  rw [hput]
  generalize hg : (dels.map (fun c => headerLen + (db.lits c).length)).sum = G
  have hdelsl : ∀ c ∈ dels, db.Live c := fun c hc => ((hkm c).1 (.inr hc)).1
  have hlive : ∀ c, (c ∈ db.clauses ∧ (if c ∈ dels then { db.hdr c with mark := false, deleted := true } else db.hdr c).deleted = false) ↔
      db.Live c ∧ c ∉ dels := by
    intro c
    by_cases hd : c ∈ dels
    · simp [hd]
    · simp [hd, Live]
  have hin : ∀ (db' : Db α), db'.hdr = (fun c => if c ∈ dels then { db.hdr c with mark := false, deleted := true } else db.hdr c) →
      ∀ t c, db'.inTier t c = (decide (c ∉ dels) && db.inTier t c) := by
    intro db' hd t c
    unfold inTier; rw [hd]
    by_cases hc : c ∈ dels <;> simp [hc]
  refine ⟨⟨h.nodup, h.lt, ?_, ?_, ?_, ?_, ?_, ?_, h.fit, h.lay⟩, hnd2.2.1, ?_, hlive, ?_, rfl, rfl, ?_, ?_, e7⟩
  · intro c hc
    obtain ⟨hc1, hc2⟩ := (hlive c).1 hc
    simp only [if_neg hc2]
    by_cases ht : (db.hdr c).tier = .local_
    · rw [ht, put_same]
      rcases (hkm c).2 ⟨hc1, ht⟩ with hk | hk
      · exact hk
      · exact absurd hk hc2
    · rw [put_ne _ _ ht]; exact h.tier c hc1
  · intro t c hc
    simp only at hc ⊢
    have hold : c < db.size ∧ (c ∈ db.clauses ∨ (db.hdr c).deleted = true) := by
      by_cases ht : t = .local_
      · subst ht; rw [put_same] at hc
        have := ((hkm c).1 (.inl hc)).1
        exact ⟨h.lt c this.1, .inl this.1⟩
      · rw [put_ne _ _ ht] at hc; exact h.tierOk t c hc
    refine ⟨hold.1, hold.2.imp id ?_⟩
    intro hd; split <;> simp [hd]
  · intro t
    simp only
    by_cases ht : t = .local_
    · subst ht
      rw [put_same]
      symm
      apply countP_of_list (db := { db with
        hdr := fun c => if c ∈ dels then { db.hdr c with mark := false, deleted := true } else db.hdr c
        byTier := put db.byTier .local_ kept
        count := put cnt .local_ kept.length
        garbage := db.garbage + G }) h.nodup hnd2.1
      intro c
      rw [Live]
      simp only
      rw [hlive]
      constructor
      · intro hk
        have := (hkm c).1 (.inl hk)
        refine ⟨⟨this.1, hdisj c hk⟩, ?_⟩
        rw [if_neg (hdisj c hk)]; exact this.2
      · rintro ⟨⟨a, b⟩, c'⟩
        rw [if_neg b] at c'
        rcases (hkm c).2 ⟨a, c'⟩ with hk | hk
        · exact hk
        · exact absurd hk b
    · rw [put_ne _ _ ht, e2 t ht, h.count]
      apply List.countP_congr
      intro c _
      refine Iff.trans ?_ (Bool.eq_iff_iff.1 (hin _ rfl t c).symm)
      by_cases hd : c ∈ dels
      · have := ((hkm c).1 (.inr hd)).2
        have hf : db.inTier t c = false := by
          unfold inTier; rw [this]; simp [Ne.symm ht]
        simp [hd, hf]
      · simp [hd]
  · intro c hc
    obtain ⟨hc1, hc2⟩ := (hlive c).1 hc
    simp only [if_neg hc2]; exact h.mark c hc1
  · intro c hc hi
    obtain ⟨hc1, hc2⟩ := (hlive c).1 hc
    simp only [if_neg hc2] at hi ⊢; exact h.glue c hc1 hi
  · have key : ∀ ds : List Nat, ds.Nodup → (∀ c ∈ ds, db.Live c) →
        (db.clauses.map (fun c => if c ∈ ds then 0 else db.words c)).sum + (ds.map (fun c => headerLen + (db.lits c).length)).sum
          = (db.clauses.map db.words).sum := by
      intro ds
      induction ds with
      | nil => intro _ _; simp
      | cons d ds ihd =>
        intro hnd hlv
        rw [List.nodup_cons] at hnd
        have h1 := ihd hnd.2 (fun c hc => hlv c (by simp [hc]))
        have hd := hlv d (by simp)
        have h2 := sum_change (f := fun c => if c ∈ ds then 0 else db.words c)
          (g := fun c => if c ∈ d :: ds then 0 else db.words c) h.nodup hd.1
          (fun x hx => by simp [hx])
        simp only [List.mem_cons, true_or, if_true, if_neg hnd.1] at h2
        have hw : db.words d = headerLen + (db.lits d).length := by unfold words; simp [hd.2]
        rw [List.map_cons, List.sum_cons]
        simp only [List.mem_cons] at h2 ⊢
        omega
    have hkey := key dels hnd2.2.1 hdelsl
    rw [hg] at hkey
    have hw : ∀ db' : Db α, db'.hdr = (fun c => if c ∈ dels then { db.hdr c with mark := false, deleted := true } else db.hdr c) →
        db'.lits = db.lits → db'.words = fun c => if c ∈ dels then 0 else db.words c := by
      intro db' e1 e2
      funext c
      unfold words; rw [e1, e2]
      by_cases hc : c ∈ dels <;> simp [hc]
    have := h.garbage
    refine Nat.le_trans (Nat.le_of_eq (congrArg (fun f => (db.clauses.map f).sum + (db.garbage + G)) (hw _ rfl rfl))) ?_
    simp only
    omega
  · intro c hc
    have := (hkm c).1 (.inr hc)
    exact ⟨this.1, this.2, e5 c hc⟩
  · intro c hc
    exact if_neg ((hlive c).1 hc).2
  · rw [h.count, countP_of_list h.nodup hnd hmem]; exact e4
  · intro c hc d hd hdt hda
    obtain ⟨hd1, hd2⟩ := (hlive d).1 hd
    apply e6 c hc d _ hda
    rcases (hkm d).2 ⟨hd1, hdt⟩ with hk | hk
    · exact hk
    · exact absurd hk hd2

/-- What the loop of `reduce_mids` does. -/
theorem midsLoop_spec : ∀ (cs : List Nat) (db : Db α), cs.Nodup → (∀ c ∈ cs, (db.hdr c).tier = .mid) →
    ∃ (kept moved : List Nat), (midsLoop cs db).2 = kept ∧ (kept ++ moved).Perm cs ∧
      (∀ c, (midsLoop cs db).1.hdr c =
        if c ∈ moved then { db.hdr c with mark := false, tier := .local_ }
        else if c ∈ kept then { db.hdr c with mark := false, active := false } else db.hdr c) ∧
      (midsLoop cs db).1.lits = db.lits ∧ (midsLoop cs db).1.size = db.size ∧
      (midsLoop cs db).1.clauses = db.clauses ∧ (midsLoop cs db).1.garbage = db.garbage ∧
      (midsLoop cs db).1.byTier = put db.byTier .local_ (db.byTier .local_ ++ moved) ∧
      (midsLoop cs db).1.count .local_ = db.count .local_ + moved.length ∧
      (∀ t, t ≠ .local_ → t ≠ .mid → (midsLoop cs db).1.count t = db.count t) ∧
      (∀ c ∈ moved, (db.hdr c).active = false) ∧ (∀ c ∈ kept, (db.hdr c).active = true) := by
  intro cs
  induction cs with
  | nil =>
    intro db _ _
    refine ⟨[], [], by simp [midsLoop], by simp, by simp [midsLoop], rfl, rfl, rfl, rfl, ?_, by simp [midsLoop],
      by simp [midsLoop], by simp, by simp⟩
    funext t; simp only [midsLoop, put, List.append_nil]; split
    · rename_i h; rw [h]
    · rfl
  | cons c cs ih =>
    intro db hn ht
    rw [List.nodup_cons] at hn
    have hne : ∀ d ∈ cs, d ≠ c := by rintro d hd rfl; exact hn.1 hd
    rw [midsLoop]
    simp only
    have hself : (db.setMark c false).hdr c = { db.hdr c with mark := false } := put_same ..
    split
    · rename_i ha
      rw [hself] at ha
      simp only at ha
      obtain ⟨kept, moved, h1, h2, h3, h4, h5, h6, h7, h8, h9, h10, h11, h12⟩ := ih
        { db.setMark c false with hdr := put (db.setMark c false).hdr c { (db.setMark c false).hdr c with active := false } }
        hn.2 (fun d hd => by
          simp only [put_ne _ _ (hne d hd), setMark]; exact ht d (by simp [hd]))
      have hsub : ∀ d, d ∈ kept ∨ d ∈ moved → d ∈ cs := fun d hd => h2.mem_iff.1 (List.mem_append.2 hd)
      have hck : c ∉ kept := fun h => hn.1 (hsub c (.inl h))
      have hcd : c ∉ moved := fun h => hn.1 (hsub c (.inr h))
      refine ⟨c :: kept, moved, by simp [h1], h2.cons c, ?_, h4, h5, h6, h7, h8, h9, h10, ?_, ?_⟩
      · intro d
        simp only
        rw [h3]
        by_cases hd : d = c
        · subst hd; simp [hck, hcd, setMark]
        · simp [put_ne _ _ hd, hd, setMark]
      · intro d hd
        have := h11 d hd
        simpa [put_ne _ _ (hne d (hsub d (.inr hd))), setMark] using this
      · intro d hd
        rcases List.mem_cons.1 hd with rfl | hd
        · exact ha
        · have := h12 d hd
          simpa [put_ne _ _ (hne d (hsub d (.inl hd))), setMark] using this
    · rename_i ha
      rw [hself] at ha
      simp only [Bool.not_eq_true] at ha
      have hmid : (db.hdr c).tier = .mid := ht c (by simp)
      have hst : (db.setMark c false).setTier c .local_ = { db with
          count := put (put db.count .mid (db.count .mid - 1)) .local_ (db.count .local_ + 1)
          hdr := put db.hdr c { db.hdr c with mark := false, tier := .local_ }
          byTier := put db.byTier .local_ (db.byTier .local_ ++ [c]) } := by
        unfold setTier
        simp only [hself, hmid]
        rw [if_pos (by simp)]
        simp only [setMark]
        congr 1
        funext d
        by_cases hd : d = c
        · subst hd; simp
        · simp [put_ne _ _ hd]
      rw [hst]
      obtain ⟨kept, moved, h1, h2, h3, h4, h5, h6, h7, h8, h9, h10, h11, h12⟩ := ih
        { db with
          count := put (put db.count .mid (db.count .mid - 1)) .local_ (db.count .local_ + 1)
          hdr := put db.hdr c { db.hdr c with mark := false, tier := .local_ }
          byTier := put db.byTier .local_ (db.byTier .local_ ++ [c]) }
        hn.2 (fun d hd => by simp only [put_ne _ _ (hne d hd)]; exact ht d (by simp [hd]))
      have hsub : ∀ d, d ∈ kept ∨ d ∈ moved → d ∈ cs := fun d hd => h2.mem_iff.1 (List.mem_append.2 hd)
      have hck : c ∉ kept := fun h => hn.1 (hsub c (.inl h))
      have hcd : c ∉ moved := fun h => hn.1 (hsub c (.inr h))
      refine ⟨kept, c :: moved, h1, List.perm_middle.trans (h2.cons c), ?_, h4, h5, h6, h7, ?_, ?_, ?_, ?_, ?_⟩
      · intro d
        rw [h3]
        by_cases hd : d = c
        · subst hd; simp [hck, hcd]
        · simp [put_ne _ _ hd, hd]
      · rw [h8]
        funext t
        by_cases ht : t = .local_
        · subst ht; simp
        · simp only [put_ne _ _ ht]
      · rw [h9]; simp; omega
      · intro t t1 t2
        rw [h10 t t1 t2]
        simp only [put_ne _ _ t1, put_ne _ _ t2]
      · intro d hd
        rcases List.mem_cons.1 hd with rfl | hd
        · exact ha
        · have := h11 d hd
          simpa [put_ne _ _ (hne d (hsub d (.inr hd)))] using this
      · intro d hd
        have := h12 d hd
        simpa [put_ne _ _ (hne d (hsub d (.inl hd)))] using this

/-- Reducing the mid tier moves the inactive clauses to the local tier. -/
theorem reduceMids_ok {db : Db α} (h : DbInv db) : DbInv db.reduceMids ∧ DbSame db db.reduceMids ∧
    ∀ c, db.Live c → (db.reduceMids.hdr c).tier =
      if (db.hdr c).tier = .mid ∧ (db.hdr c).active = false then .local_ else (db.hdr c).tier := by
  obtain ⟨ks, h1, h2, h3⟩ := dedupMark_live h .mid
  have hks : ∀ c, (if c ∈ ks then { db.hdr c with mark := true } else db.hdr c).tier = (db.hdr c).tier := by
    intro c; split <;> rfl
  have hksa : ∀ c, (if c ∈ ks then { db.hdr c with mark := true } else db.hdr c).active = (db.hdr c).active := by
    intro c; split <;> rfl
  obtain ⟨kept, moved, e1, e2, e3, e4, e5, e6, e7, e8, e9, e10, e11, e12⟩ := midsLoop_spec ks
    { db with
      hdr := fun c => if c ∈ ks then { db.hdr c with mark := true } else db.hdr c
      byTier := put db.byTier .mid [] } h2 (fun c hc => (hks c).trans ((h3 c).1 hc).2)
  obtain ⟨D, hD⟩ : ∃ D, D = db.reduceMids := ⟨_, rfl⟩
  rw [← hD]
  unfold reduceMids at hD
  rw [h1] at hD
  simp only at hD e3 e4 e5 e6 e7 e8 e9 e10 e11 e12
  generalize midsLoop ks _ = R at *
  have hnd : (kept ++ moved).Nodup := e2.nodup_iff.2 h2
  rw [List.nodup_append] at hnd
  have hkm : ∀ c, c ∈ kept ∨ c ∈ moved ↔ db.Live c ∧ (db.hdr c).tier = .mid := by
    intro c; rw [← List.mem_append, e2.mem_iff, h3]
  have hdisj : ∀ c, c ∈ kept → c ∉ moved := fun c a b => hnd.2.2 c a c b rfl
  -- the final header
  have hH : ∀ c, D.hdr c = if c ∈ moved then { db.hdr c with mark := false, tier := .local_ }
      else if c ∈ kept then { db.hdr c with mark := false, active := false } else db.hdr c := by
    intro c
    rw [hD]
    simp only
    rw [e3]
    by_cases hm : c ∈ moved
    · simp only [if_pos hm]; split <;> rfl
    · simp only [if_neg hm]
      by_cases hk : c ∈ kept
      · simp only [if_pos hk]; split <;> rfl
      · simp only [if_neg hk]
        rw [if_neg]
        rw [h3, ← hkm]; simp [hk, hm]
  have hdel : ∀ c, (D.hdr c).deleted = (db.hdr c).deleted := by
    intro c; rw [hH]; split
    · rfl
    · split <;> rfl
  have hcl : D.clauses = db.clauses := by rw [hD]; exact e6
  have hli : D.lits = db.lits := by rw [hD]; exact e4
  have hsz : D.size = db.size := by rw [hD]; exact e5
  have hga : D.garbage = db.garbage := by rw [hD]; exact e7
  have hby : D.byTier = put (put (put db.byTier .mid []) .local_ (db.byTier .local_ ++ moved)) .mid kept := by
    rw [hD]
    simp only
    rw [e8, e1]
    rfl
  have hco : D.count = put R.1.count .mid kept.length := by rw [hD]; simp only; rw [e1]
  have hlv : ∀ c, D.Live c ↔ db.Live c := by
    intro c; unfold Live; rw [hcl, hdel]
  have hti : ∀ c, (D.hdr c).tier = if c ∈ moved then .local_ else (db.hdr c).tier := by
    intro c; rw [hH]; split
    · rfl
    · split <;> rfl
  have hmid : ∀ c, c ∈ moved → (db.hdr c).tier = .mid := fun c hc => ((hkm c).1 (.inr hc)).2
  have hcl' := hcl ▸ h.nodup
  have hcount : ∀ t, D.count t = D.clauses.countP (D.inTier t) := by
    intro t
    by_cases ht : t = .mid
    · subst ht
      rw [hco, put_same, countP_of_list hcl' hnd.1]
      intro c
      rw [hlv, hti]
      constructor
      · intro hk
        have := (hkm c).1 (.inl hk)
        rw [if_neg (hdisj c hk)]; exact this
      · rintro ⟨a, b⟩
        by_cases hm : c ∈ moved
        · rw [if_pos hm] at b; simp at b
        · rw [if_neg hm] at b
          rcases (hkm c).2 ⟨a, b⟩ with hk | hk
          · exact hk
          · exact absurd hk hm
    · rw [hco, put_ne _ _ ht]
      by_cases hl : t = .local_
      · subst hl
        rw [e9]
        have hloc : ∃ ls : List Nat, ls.Nodup ∧ ∀ c, c ∈ ls ↔ db.Live c ∧ (db.hdr c).tier = .local_ := by
          obtain ⟨ls, _, l2, l3⟩ := dedupMark_live h .local_
          exact ⟨ls, l2, l3⟩
        obtain ⟨ls, l1, l2⟩ := hloc
        rw [h.count, countP_of_list h.nodup l1 l2, ← List.length_append]
        symm
        apply countP_of_list hcl'
        · rw [List.nodup_append]
          refine ⟨l1, hnd.2.1, ?_⟩
          rintro a ha b hb rfl
          have h4 := ((l2 a).1 ha).2
          rw [hmid a hb] at h4; simp at h4
        · intro c
          rw [hlv, hti, List.mem_append, l2]
          constructor
          · rintro (⟨a, b⟩ | a)
            · refine ⟨a, ?_⟩
              split
              · rfl
              · exact b
            · exact ⟨((hkm c).1 (.inr a)).1, if_pos a⟩
          · rintro ⟨a, b⟩
            by_cases hm : c ∈ moved
            · exact .inr hm
            · rw [if_neg hm] at b; exact .inl ⟨a, b⟩
      · rw [e10 t hl ht, h.count, hcl]
        apply List.countP_congr
        intro c _
        unfold inTier
        rw [hdel, hti]
        by_cases hm : c ∈ moved
        · simp only [if_pos hm, hmid c hm]
          simp [Ne.symm ht, Ne.symm hl]
        · simp only [if_neg hm]
  refine ⟨⟨hcl', ?_, ?_, ?_, hcount, ?_, ?_, ?_, by rw [hcl, hsz, hli]; exact h.fit, by rw [hcl, hli]; exact h.lay⟩, ⟨hsz, hli, hlv, ?_⟩, ?_⟩
  · rw [hcl, hsz]; exact h.lt
  · intro c hc
    rw [hlv] at hc
    rw [hti, hby]
    by_cases hm : c ∈ moved
    · rw [if_pos hm, put_ne _ _ (by simp), put_same]; simp [hm]
    · rw [if_neg hm]
      by_cases hmd : (db.hdr c).tier = .mid
      · rw [hmd, put_same]
        rcases (hkm c).2 ⟨hc, hmd⟩ with hk | hk
        · exact hk
        · exact absurd hk hm
      · rw [put_ne _ _ hmd]
        have := h.tier c hc
        by_cases hl : (db.hdr c).tier = .local_
        · rw [hl, put_same]; rw [hl] at this; simp [this]
        · rw [put_ne _ _ hl, put_ne _ _ hmd]; exact this
  · intro t c hc
    rw [hsz, hcl, hdel]
    rw [hby] at hc
    have hkk : c ∈ kept ∨ c ∈ moved → c < db.size ∧ (c ∈ db.clauses ∨ (db.hdr c).deleted = true) := by
      intro hk
      have := ((hkm c).1 hk).1
      exact ⟨h.lt c this.1, .inl this.1⟩
    by_cases hmd : t = .mid
    · subst hmd; rw [put_same] at hc; exact hkk (.inl hc)
    · rw [put_ne _ _ hmd] at hc
      by_cases hl : t = .local_
      · subst hl; rw [put_same, List.mem_append] at hc
        rcases hc with hc | hc
        · exact h.tierOk _ c hc
        · exact hkk (.inr hc)
      · rw [put_ne _ _ hl, put_ne _ _ hmd] at hc; exact h.tierOk t c hc
  · intro c hc
    rw [hlv] at hc
    rw [hH]; split
    · rfl
    · split
      · rfl
      · exact h.mark c hc
  · intro c hc hi
    rw [hlv] at hc
    rw [hti] at hi
    have hm : c ∉ moved := by intro hm; rw [if_pos hm] at hi; simp at hi
    rw [if_neg hm] at hi
    rw [hH, if_neg hm]
    split
    · exact h.glue c hc hi
    · exact h.glue c hc hi
  · have hw : D.words = db.words := by
      funext c; unfold words; rw [hdel, hli]
    rw [hw, hcl, hga, hsz]; exact h.garbage
  · intro c hc
    rw [hti]
    split
    · rename_i hm; rw [hmid c hm]; simp
    · rfl
  · intro c hc
    rw [hti]
    by_cases hm : c ∈ moved
    · rw [if_pos hm, if_pos]
      refine ⟨hmid c hm, ?_⟩
      rw [← hksa]; exact e11 c hm
    · rw [if_neg hm, if_neg]
      rintro ⟨a, b⟩
      rcases (hkm c).2 ⟨hc, a⟩ with hk | hk
      · have := e12 c hk
        rw [hksa, b] at this; cases this
      · exact hm hk

end Db
end Varisat.Solver
