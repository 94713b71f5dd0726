import Verif.Model.Solver.Db
import Verif.Proof.Solver.Clauses
import Mathlib.Algebra.Order.BigOperators.Group.List
import Mathlib.Algebra.Order.Ring.Nat
/-!
# The clause database: invariants and what each operation changes
-/
namespace Varisat.Solver

variable {α : Type} [LinearOrder α]

/-- The clause is stored and not deleted. -/
def Db.Live (db : Db α) (c : Nat) : Prop := c ∈ db.clauses ∧ (db.hdr c).deleted = false

/-- Words of the buffer used by a live clause. -/
def Db.words (db : Db α) (c : Nat) : Nat :=
  if (db.hdr c).deleted then 0 else headerLen + (db.lits c).length

/-- Whether the clause counts for the tier. -/
def Db.inTier (db : Db α) (t : Tier) (c : Nat) : Bool :=
  !(db.hdr c).deleted && decide ((db.hdr c).tier = t)

/-- The invariant of the clause database. -/
structure DbInv (db : Db α) : Prop where
  nodup : db.clauses.Nodup
  lt : ∀ c ∈ db.clauses, c < db.size
  tier : ∀ c, db.Live c → c ∈ db.byTier (db.hdr c).tier
  tierOk : ∀ t, ∀ c ∈ db.byTier t, c < db.size ∧ (c ∈ db.clauses ∨ (db.hdr c).deleted = true)
  count : ∀ t, db.count t = db.clauses.countP (db.inTier t)
  mark : ∀ c, db.Live c → (db.hdr c).mark = false
  glue : ∀ c, db.Live c → (db.hdr c).tier = .irred → (db.hdr c).glue = 0
  garbage : (db.clauses.map db.words).sum + db.garbage ≤ db.size
  fit : ∀ c ∈ db.clauses, c + headerLen + (db.lits c).length ≤ db.size
  lay : db.clauses.Pairwise (fun c d => c + headerLen + (db.lits c).length ≤ d)

/-- Same clauses, and the same ones irredundant. -/
structure DbSame (db db' : Db α) : Prop where
  size : db'.size = db.size
  lits : db'.lits = db.lits
  live : ∀ c, db'.Live c ↔ db.Live c
  irr : ∀ c, db.Live c → ((db'.hdr c).tier = .irred ↔ (db.hdr c).tier = .irred)

theorem DbSame.refl (db : Db α) : DbSame db db := ⟨rfl, rfl, fun _ => Iff.rfl, fun _ _ => Iff.rfl⟩
theorem DbSame.trans {a b c : Db α} (h : DbSame a b) (k : DbSame b c) : DbSame a c :=
  ⟨k.size.trans h.size, k.lits.trans h.lits, fun x => (k.live x).trans (h.live x),
    fun x hx => (k.irr x ((h.live x).2 hx)).trans (h.irr x hx)⟩

theorem countP_change {β : Type} [DecidableEq β] {P Q : β → Bool} {c : β} : ∀ {cs : List β}, cs.Nodup → c ∈ cs →
    (∀ x, x ≠ c → Q x = P x) →
    cs.countP Q + (if P c then 1 else 0) = cs.countP P + (if Q c then 1 else 0)
  | [], _, h, _ => by simp at h
  | x :: xs, hn, h, hpq => by
    rw [List.nodup_cons] at hn
    rw [List.countP_cons, List.countP_cons]
    by_cases hx : x = c
    · subst hx
      have : xs.countP Q = xs.countP P := by
        apply List.countP_congr
        intro y hy
        rw [hpq y (by rintro rfl; exact hn.1 hy)]
      rw [this]; omega
    · have hc : c ∈ xs := by
        rcases List.mem_cons.1 h with h | h
        · exact absurd h.symm hx
        · exact h
      have := countP_change hn.2 hc hpq
      rw [hpq x hx]; omega

theorem sum_change {β : Type} [DecidableEq β] {f g : β → Nat} {c : β} : ∀ {cs : List β}, cs.Nodup → c ∈ cs →
    (∀ x, x ≠ c → g x = f x) → (cs.map g).sum + f c = (cs.map f).sum + g c
  | [], _, h, _ => by simp at h
  | x :: xs, hn, h, hfg => by
    rw [List.nodup_cons] at hn
    simp only [List.map_cons, List.sum_cons]
    by_cases hx : x = c
    · subst hx
      have : xs.map g = xs.map f := by
        apply List.map_congr_left
        intro y hy
        rw [hfg y (by rintro rfl; exact hn.1 hy)]
      rw [this]; omega
    · have hc : c ∈ xs := by
        rcases List.mem_cons.1 h with h | h
        · exact absurd h.symm hx
        · exact h
      have := sum_change hn.2 hc hfg
      rw [hfg x hx]; omega

namespace Db

variable {db : Db α}

/-- Changing fields of headers other than tier, deletion and mark (and the glue only if redundant). -/
theorem hdr_same (h : DbInv db) (f : Nat → Hdr α) (hd : ∀ c, (f c).deleted = (db.hdr c).deleted)
    (ht : ∀ c, (f c).tier = (db.hdr c).tier) (hm : ∀ c, (f c).mark = (db.hdr c).mark)
    (hg : ∀ c, (db.hdr c).tier = .irred → (f c).glue = (db.hdr c).glue) :
    DbInv { db with hdr := f } ∧ DbSame db { db with hdr := f } := by
  have hl : ∀ c, Db.Live { db with hdr := f } c ↔ db.Live c := by
    intro c; unfold Live; rw [hd]
  have hin : ∀ t, Db.inTier { db with hdr := f } t = db.inTier t := by
    intro t; funext c; unfold inTier; simp only; rw [hd, ht]
  have hw : Db.words { db with hdr := f } = db.words := by
    funext c; unfold words; simp only; rw [hd]
  refine ⟨⟨h.nodup, h.lt, ?_, ?_, ?_, ?_, ?_, ?_, h.fit, h.lay⟩, ⟨rfl, rfl, hl, fun c _ => by simp only [ht]⟩⟩
  · intro c hc; rw [hl] at hc; simp only [ht]; exact h.tier c hc
  · intro t c hc
    have := h.tierOk t c hc
    simp only [hd]; exact this
  · intro t; rw [hin]; exact h.count t
  · intro c hc; rw [hl] at hc; simp only [hm]; exact h.mark c hc
  · intro c hc hi; rw [hl] at hc; simp only [ht] at hi ⊢; rw [hg c hi]; exact h.glue c hc hi
  · rw [hw]; exact h.garbage

theorem put_hdr_same (h : DbInv db) (c : Nat) (x : Hdr α) (hd : x.deleted = (db.hdr c).deleted)
    (ht : x.tier = (db.hdr c).tier) (hm : x.mark = (db.hdr c).mark)
    (hg : (db.hdr c).tier = .irred → x.glue = (db.hdr c).glue) :
    DbInv { db with hdr := put db.hdr c x } ∧ DbSame db { db with hdr := put db.hdr c x } := by
  have key : ∀ (P : Nat → Hdr α → Prop), P c x → (∀ d, P d (db.hdr d)) → ∀ d, P d (put db.hdr c x d) := by
    intro P h1 h2 d
    by_cases hdc : d = c
    · subst hdc; rw [put_same]; exact h1
    · rw [put_ne _ _ hdc]; exact h2 d
  exact hdr_same h _ (key (fun d y => y.deleted = (db.hdr d).deleted) hd (fun _ => rfl))
    (key (fun d y => y.tier = (db.hdr d).tier) ht (fun _ => rfl))
    (key (fun d y => y.mark = (db.hdr d).mark) hm (fun _ => rfl))
    (key (fun d y => (db.hdr d).tier = .irred → y.glue = (db.hdr d).glue) hg (fun _ _ => rfl))

/-- Dropping deleted references from the list. -/
theorem iter_same (h : DbInv db) : DbInv { db with clauses := db.iter } ∧ DbSame db { db with clauses := db.iter } := by
  have hl : ∀ c, Db.Live { db with clauses := db.iter } c ↔ db.Live c := by
    intro c; unfold Live iter; simp only [List.mem_filter]
    constructor
    · rintro ⟨⟨h1, _⟩, h2⟩; exact ⟨h1, h2⟩
    · rintro ⟨h1, h2⟩; exact ⟨⟨h1, by simp [h2]⟩, h2⟩
  refine ⟨⟨h.nodup.sublist List.filter_sublist, fun c hc => h.lt c (List.mem_filter.1 hc).1, ?_, ?_, ?_, ?_, ?_, ?_,
    fun c hc => h.fit c (List.mem_filter.1 hc).1, h.lay.sublist List.filter_sublist⟩,
    ⟨rfl, rfl, hl, fun _ _ => Iff.rfl⟩⟩
  · intro c hc; exact h.tier c ((hl c).1 hc)
  · intro t c hc
    obtain ⟨h1, h2⟩ := h.tierOk t c hc
    refine ⟨h1, ?_⟩
    by_cases hd : (db.hdr c).deleted = true
    · exact .inr hd
    · left
      rcases h2 with h2 | h2
      · exact List.mem_filter.2 ⟨h2, by simpa using hd⟩
      · exact absurd h2 hd
  · intro t
    show db.count t = List.countP (db.inTier t) db.iter
    rw [h.count, iter, List.countP_filter]
    apply List.countP_congr
    intro c _
    unfold inTier
    simp only [Bool.and_eq_true]
    constructor
    · rintro ⟨a, b⟩; exact ⟨⟨a, b⟩, a⟩
    · rintro ⟨a, _⟩; exact a
  · intro c hc; exact h.mark c ((hl c).1 hc)
  · intro c hc; exact h.glue c ((hl c).1 hc)
  · refine Nat.le_trans (Nat.add_le_add_right ?_ _) h.garbage
    show (db.iter.map db.words).sum ≤ _
    exact List.Sublist.sum_le_sum (List.filter_sublist.map _) (fun _ _ => Nat.zero_le _)

theorem rescale_same (ar : Arith α) (h : DbInv db) : DbInv (db.rescale ar) ∧ DbSame db (db.rescale ar) := by
  obtain ⟨h1, h2⟩ := iter_same h
  have := hdr_same h1 (fun c =>
      if c ∈ db.iter then { db.hdr c with activity := ar.shrink (db.hdr c).activity } else db.hdr c)
    (fun c => by split <;> rfl) (fun c => by split <;> rfl) (fun c => by split <;> rfl)
    (fun c _ => by split <;> rfl)
  exact ⟨this.1, h2.trans this.2⟩

theorem bumpActivity_same (ar : Arith α) (h : DbInv db) (bump : α) (cref : Nat) :
    DbInv (db.bumpActivity ar bump cref).1 ∧ DbSame db (db.bumpActivity ar bump cref).1 := by
  have h1 := put_hdr_same h cref { db.hdr cref with activity := ar.add (db.hdr cref).activity bump }
    rfl rfl rfl (fun _ => rfl)
  unfold bumpActivity
  simp only
  split
  · have h2 := rescale_same ar h1.1
    exact ⟨h2.1, h1.2.trans h2.2⟩
  · exact h1

theorem decayActivities_same (ar : Arith α) (h : DbInv db) (bump : α) :
    DbInv (db.decayActivities ar bump).1 ∧ DbSame db (db.decayActivities ar bump).1 := by
  unfold decayActivities
  simp only
  split
  · exact rescale_same ar h
  · exact ⟨h, DbSame.refl _⟩

/-- Moving a live redundant clause to another redundant tier. -/
theorem setTier_same (h : DbInv db) {c : Nat} {t : Tier} (hc : db.Live c) (ht : t ≠ .irred)
    (hi : (db.hdr c).tier ≠ .irred) : DbInv (db.setTier c t) ∧ DbSame db (db.setTier c t) := by
  unfold setTier
  simp only
  split
  swap
  · exact ⟨h, DbSame.refl _⟩
  rename_i hne
  have hdel : ∀ d, (put db.hdr c { db.hdr c with tier := t } d).deleted = (db.hdr d).deleted := by
    intro d; unfold put; split
    · rename_i he; rw [he]
    · rfl
  have hmk : ∀ d, (put db.hdr c { db.hdr c with tier := t } d).mark = (db.hdr d).mark := by
    intro d; unfold put; split
    · rename_i he; rw [he]
    · rfl
  have hti : ∀ d, d ≠ c → (put db.hdr c { db.hdr c with tier := t } d).tier = (db.hdr d).tier := by
    intro d hd; rw [put_ne _ _ hd]
  have hl : ∀ d, (d ∈ db.clauses ∧ (put db.hdr c { db.hdr c with tier := t } d).deleted = false) ↔ db.Live d := by
    intro d; rw [hdel]; rfl
  refine ⟨⟨h.nodup, h.lt, ?_, ?_, ?_, ?_, ?_, ?_, h.fit, h.lay⟩, ⟨rfl, rfl, hl, ?_⟩⟩
  · intro d hd
    have hd' := (hl d).1 hd
    by_cases hdc : d = c
    · subst hdc; simp
    · simp only [hti d hdc]
      have := h.tier d hd'
      unfold put; split
      · rename_i he; rw [he] at this; simp [this]
      · exact this
  · intro u d hd
    simp only [hdel]
    simp only at hd
    unfold put at hd
    split at hd
    · rw [List.mem_append, List.mem_singleton] at hd
      rename_i he
      rcases hd with hd | rfl
      · exact h.tierOk _ d hd
      · exact ⟨h.lt d hc.1, .inl hc.1⟩
    · exact h.tierOk _ d hd
  · intro u
    have hfun : ∀ db' : Db α, db'.hdr = put db.hdr c { db.hdr c with tier := t } →
        db'.inTier u = fun d => if d = c then decide (t = u) else db.inTier u d := by
      intro db' he
      funext d
      unfold inTier
      rw [he]
      by_cases hdc : d = c
      · subst hdc; rw [put_same]; simp [hc.2]
      · simp only [put_ne _ _ hdc, if_neg hdc]
    rw [hfun _ rfl]
    have key := countP_change (P := db.inTier u) (Q := fun d => if d = c then decide (t = u) else db.inTier u d)
      h.nodup hc.1 (fun d hd => by simp [hd])
    have hP : db.inTier u c = decide ((db.hdr c).tier = u) := by unfold inTier; rw [hc.2]; simp
    rw [hP] at key
    simp only [if_true] at key
    have hcnt := h.count u
    simp only [decide_eq_true_eq] at key
    have hpos : 0 < db.count (db.hdr c).tier := by
      rw [h.count]; apply List.countP_pos_iff.2; exact ⟨c, hc.1, by unfold inTier; simp [hc.2]⟩
    simp only
    by_cases h1 : u = t
    · subst h1
      rw [if_neg hne, if_pos rfl] at key
      rw [put_same, put_ne _ _ (fun h => hne h.symm)]
      omega
    · by_cases h2 : u = (db.hdr c).tier
      · rw [if_pos h2.symm, if_neg (fun h => h1 h.symm)] at key
        rw [put_ne _ _ h1, h2, put_same]
        rw [h2] at key hcnt
        omega
      · rw [if_neg (fun h => h2 h.symm), if_neg (fun h => h1 h.symm)] at key
        rw [put_ne _ _ h1, put_ne _ _ h2, hcnt]
        omega
  · intro d hd; simp only [hmk]; exact h.mark d ((hl d).1 hd)
  · intro d hd hdi
    by_cases hdc : d = c
    · subst hdc; simp at hdi; exact absurd hdi ht
    · simp only [put_ne _ _ hdc] at hdi ⊢
      exact h.glue d ((hl d).1 hd) hdi
  · have hw : Db.words { db with
        count := put (put db.count (db.hdr c).tier (db.count (db.hdr c).tier - 1)) t
          (put db.count (db.hdr c).tier (db.count (db.hdr c).tier - 1) t + 1)
        hdr := put db.hdr c { db.hdr c with tier := t }
        byTier := put db.byTier t (db.byTier t ++ [c]) } = db.words := by
      funext d; unfold words; simp only; rw [hdel]
    rw [hw]; exact h.garbage
  · intro d hd
    by_cases hdc : d = c
    · subst hdc; simp [ht, hi]
    · simp only [put_ne _ _ hdc]

theorem selectTier_ne (g : Nat) : selectTier g ≠ .irred := by
  unfold selectTier; split
  · simp
  · split <;> simp

theorem bumpClause_same (ar : Arith α) (p : Pt) {c : Nat} {s : Db α × α × (Nat → Bool)} (h : DbInv s.1)
    (hc : s.1.Live c) : DbInv (bumpClause ar p c s).1 ∧ DbSame s.1 (bumpClause ar p c s).1 := by
  obtain ⟨h1, h2⟩ := bumpActivity_same ar h s.2.1 c
  unfold bumpClause
  simp only
  generalize s.1.bumpActivity ar s.2.1 c = r at *
  have h3 := put_hdr_same h1 c { r.1.hdr c with active := true } rfl rfl rfl (fun _ => rfl)
  have hc3 := (h3.2.live c).2 ((h2.live c).2 hc)
  split
  · rename_i hg
    simp only [put_same] at hg
    have hni : (r.1.hdr c).tier ≠ .irred := by
      intro hi
      rw [h1.glue c ((h2.live c).2 hc) hi] at hg
      omega
    have h4 := put_hdr_same h3.1 c
      { (put r.1.hdr c { r.1.hdr c with active := true }) c with
        glue := satGlue (computeGlue p s.2.2 (r.1.lits c)).2 } rfl rfl rfl
      (fun hi => by simp only [put_same] at hi; exact absurd hi hni)
    have hc4 := (h4.2.live c).2 hc3
    have h5 := setTier_same h4.1 hc4 (selectTier_ne (computeGlue p s.2.2 (r.1.lits c)).2)
      (by simp only [put_same]; exact hni)
    exact ⟨h5.1, h2.trans (h3.2.trans (h4.2.trans h5.2))⟩
  · exact ⟨h3.1, h2.trans h3.2⟩

theorem bumpAll_same (ar : Arith α) (p : Pt) : ∀ (cs : List Nat) (s : Db α × α × (Nat → Bool)), DbInv s.1 →
    (∀ c ∈ cs, s.1.Live c) →
    DbInv (cs.foldl (fun b c => bumpClause ar p c b) s).1 ∧
    DbSame s.1 (cs.foldl (fun b c => bumpClause ar p c b) s).1
  | [], s, h, _ => ⟨h, DbSame.refl _⟩
  | c :: cs, s, h, hc => by
    obtain ⟨h1, h2⟩ := bumpClause_same ar p h (hc c (by simp))
    obtain ⟨h3, h4⟩ := bumpAll_same ar p cs _ h1 (fun d hd => (h2.live d).2 (hc d (by simp [hd])))
    exact ⟨h3, h2.trans h4⟩

/-- Adding a clause. -/
theorem addClause_ok (h : DbInv db) (w : Wl) {x : Hdr α} (hxd : x.deleted = false) (hxm : x.mark = false)
    (hxg : x.tier = .irred → x.glue = 0) {lits : List Lit} (hl : 3 ≤ lits.length) :
    ∃ db' w' l0 l1 tl, lits = l0 :: l1 :: tl ∧ db.addClause w x lits = some (db', w', db.size) ∧
      w' = w.watchClause db.size l0 l1 ∧ DbInv db' ∧
      (∀ c, db'.Live c ↔ db.Live c ∨ c = db.size) ∧
      db'.lits = put db.lits db.size lits ∧ db'.hdr = put db.hdr db.size x := by
  match lits, hl with
  | l0 :: l1 :: l2 :: tl, _ =>
    have hfr : ∀ c ∈ db.clauses, c ≠ db.size := fun c hc => Nat.ne_of_lt (h.lt c hc)
    have hlv : ∀ c, (c ∈ db.clauses ++ [db.size] ∧ (put db.hdr db.size x c).deleted = false) ↔ db.Live c ∨ c = db.size := by
      intro c
      rw [List.mem_append, List.mem_singleton]
      by_cases hc : c = db.size
      · subst hc; simp [hxd]
      · rw [put_ne _ _ hc]; simp [hc, Live]
    refine ⟨_, _, l0, l1, l2 :: tl, rfl, rfl, rfl, ?_, hlv, rfl, rfl⟩
    refine ⟨?_, ?_, ?_, ?_, ?_, ?_, ?_, ?_, ?_, ?_⟩
    · simp only [alloc]
      rw [List.nodup_append]
      refine ⟨h.nodup, by simp, ?_⟩
      intro a ha b hb hab
      rw [List.mem_singleton] at hb
      exact hfr a ha (hab.trans hb)
    · intro c hc
      simp only [alloc, List.mem_append, List.mem_singleton] at hc ⊢
      unfold headerLen
      rcases hc with hc | hc
      · have := h.lt c hc; omega
      · omega
    · intro c hc
      rcases (hlv c).1 hc with h1 | rfl
      · have hne := hfr c h1.1
        simp only [alloc, put_ne _ _ hne]
        have := h.tier c h1
        unfold put; split
        · rename_i he; rw [he] at this; simp [this]
        · exact this
      · simp [alloc]
    · intro t c hc
      simp only [alloc] at hc ⊢
      have hold : c ∈ db.byTier t → c < db.size + headerLen + (l0 :: l1 :: l2 :: tl).length ∧
          (c ∈ db.clauses ++ [db.size] ∨ (put db.hdr db.size x c).deleted = true) := by
        intro hm
        obtain ⟨h1, h2⟩ := h.tierOk t c hm
        refine ⟨by omega, ?_⟩
        rw [put_ne _ _ (Nat.ne_of_lt h1)]
        rcases h2 with h2 | h2
        · exact .inl (by simp [h2])
        · exact .inr h2
      by_cases htt : t = x.tier
      · subst htt
        rw [put_same, List.mem_append, List.mem_singleton] at hc
        rcases hc with hc | rfl
        · exact hold hc
        · exact ⟨by unfold headerLen; omega, .inl (by simp)⟩
      · rw [put_ne _ _ htt] at hc
        exact hold hc
    · intro t
      simp only [alloc]
      rw [List.countP_append]
      have h1 : List.countP (Db.inTier { db with
            lits := put db.lits db.size (l0 :: l1 :: l2 :: tl)
            hdr := put db.hdr db.size x
            size := db.size + headerLen + (l0 :: l1 :: l2 :: tl).length
            clauses := db.clauses ++ [db.size]
            byTier := put db.byTier x.tier (db.byTier x.tier ++ [db.size])
            count := put db.count x.tier (db.count x.tier + 1) } t) db.clauses = db.clauses.countP (db.inTier t) := by
        apply List.countP_congr
        intro c hc
        unfold inTier
        simp only [put_ne _ _ (hfr c hc)]
      rw [h1, ← h.count]
      have h2 : Db.inTier { db with
            lits := put db.lits db.size (l0 :: l1 :: l2 :: tl)
            hdr := put db.hdr db.size x
            size := db.size + headerLen + (l0 :: l1 :: l2 :: tl).length
            clauses := db.clauses ++ [db.size]
            byTier := put db.byTier x.tier (db.byTier x.tier ++ [db.size])
            count := put db.count x.tier (db.count x.tier + 1) } t db.size = decide (x.tier = t) := by
        unfold inTier; simp [hxd]
      rw [List.countP_singleton, h2]
      unfold put
      by_cases he : t = x.tier
      · subst he; simp
      · simp [he, Ne.symm he]
    · intro c hc
      rcases (hlv c).1 hc with h1 | rfl
      · simp only [alloc, put_ne _ _ (hfr c h1.1)]; exact h.mark c h1
      · simpa [alloc] using hxm
    · intro c hc hi
      rcases (hlv c).1 hc with h1 | rfl
      · simp only [alloc, put_ne _ _ (hfr c h1.1)] at hi ⊢; exact h.glue c h1 hi
      · simp only [alloc, put_same] at hi ⊢; exact hxg hi
    · simp only [alloc]
      rw [List.map_append, List.sum_append]
      have h1 : List.map (Db.words { db with
            lits := put db.lits db.size (l0 :: l1 :: l2 :: tl)
            hdr := put db.hdr db.size x
            size := db.size + headerLen + (l0 :: l1 :: l2 :: tl).length
            clauses := db.clauses ++ [db.size]
            byTier := put db.byTier x.tier (db.byTier x.tier ++ [db.size])
            count := put db.count x.tier (db.count x.tier + 1) }) db.clauses = db.clauses.map db.words := by
        apply List.map_congr_left
        intro c hc
        unfold words
        simp only
        rw [put_ne _ _ (hfr c hc), put_ne _ _ (hfr c hc)]
      rw [h1]
      have := h.garbage
      simp [words, hxd]
      omega
    · intro c hc
      simp only [alloc] at hc ⊢
      rcases List.mem_append.1 hc with hc | hc
      · rw [put_ne _ _ (hfr c hc)]
        have := h.fit c hc
        omega
      · rw [List.mem_singleton] at hc
        subst hc
        rw [put_same]
    · simp only [alloc]
      rw [List.pairwise_append]
      refine ⟨h.lay.imp_of_mem ?_, by simp, ?_⟩
      · intro c d hc _ hcd
        rw [put_ne _ _ (hfr c hc)]; exact hcd
      · intro c hc d hd
        rw [List.mem_singleton] at hd
        subst hd
        rw [put_ne _ _ (hfr c hc)]
        exact h.fit c hc

/-- Deleting a live clause. -/
theorem delete_ok (h : DbInv db) {c : Nat} (hc : db.Live c) :
    DbInv (db.delete c) ∧ (∀ d, (db.delete c).Live d ↔ db.Live d ∧ d ≠ c) ∧
    (db.delete c).lits = db.lits ∧ (db.delete c).size = db.size ∧ (db.delete c).clauses = db.clauses ∧
    (db.delete c).byTier = db.byTier ∧
    (∀ d, d ≠ c → (db.delete c).hdr d = db.hdr d) := by
  have hne : ∀ d, d ≠ c → (db.delete c).hdr d = db.hdr d := fun d hd => put_ne _ _ hd
  have hself : (db.delete c).hdr c = { db.hdr c with deleted := true } := put_same ..
  have hl : ∀ d, (db.delete c).Live d ↔ db.Live d ∧ d ≠ c := by
    intro d
    unfold Live
    by_cases hd : d = c
    · subst hd; rw [hself]; simp
    · rw [hne d hd]; simp [hd, delete]
  refine ⟨⟨h.nodup, h.lt, ?_, ?_, ?_, ?_, ?_, ?_, h.fit, h.lay⟩, hl, rfl, rfl, rfl, rfl, hne⟩
  · intro d hd
    obtain ⟨h1, h2⟩ := (hl d).1 hd
    rw [hne d h2]; exact h.tier d h1
  · intro t d hd
    obtain ⟨h1, h2⟩ := h.tierOk t d hd
    refine ⟨h1, ?_⟩
    rcases h2 with h2 | h2
    · exact .inl h2
    · right
      by_cases hdc : d = c
      · subst hdc; rw [hself]
      · rw [hne d hdc]; exact h2
  · intro t
    have key := countP_change (P := db.inTier t) (Q := (db.delete c).inTier t) h.nodup hc.1
      (fun d hd => by unfold inTier; simp only [hne d hd])
    have hP : db.inTier t c = decide ((db.hdr c).tier = t) := by unfold inTier; rw [hc.2]; simp
    have hQ : (db.delete c).inTier t c = false := by unfold inTier; rw [hself]; simp
    rw [hP, hQ] at key
    simp only [decide_eq_true_eq, Bool.false_eq_true, if_false] at key
    have hcnt := h.count t
    show put db.count (db.hdr c).tier (db.count (db.hdr c).tier - 1) t = List.countP _ db.clauses
    by_cases he : t = (db.hdr c).tier
    · rw [if_pos he.symm] at key
      rw [← he, put_same]; omega
    · rw [if_neg (fun h => he h.symm)] at key
      rw [put_ne _ _ he]; omega
  · intro d hd
    obtain ⟨h1, h2⟩ := (hl d).1 hd
    rw [hne d h2]; exact h.mark d h1
  · intro d hd hi
    obtain ⟨h1, h2⟩ := (hl d).1 hd
    rw [hne d h2] at hi ⊢; exact h.glue d h1 hi
  · have key := sum_change (f := db.words) (g := (db.delete c).words) h.nodup hc.1
      (fun d hd => by unfold words; rw [hne d hd]; rfl)
    have hf : db.words c = headerLen + (db.lits c).length := by unfold words; rw [hc.2]; simp
    have hg : (db.delete c).words c = 0 := by unfold words; rw [hself]; simp
    have := h.garbage
    show (db.clauses.map _).sum + (db.garbage + (db.lits c).length + headerLen) ≤ db.size
    omega

/-- Changing the literals of clauses without making them longer. -/
theorem relit_ok (h : DbInv db) (f : Nat → List Lit) (hf : ∀ c, (f c).length ≤ (db.lits c).length) :
    DbInv { db with lits := f } := by
  refine ⟨h.nodup, h.lt, h.tier, h.tierOk, h.count, h.mark, h.glue, ?_, fun c hc => ?_, h.lay.imp (fun {c _} hcd => ?_)⟩
  rotate_left
  · have := h.fit c hc
    have := hf c
    simp only; omega
  · have := hf c
    simp only; omega
  refine Nat.le_trans (Nat.add_le_add_right ?_ _) h.garbage
  apply List.sum_le_sum
  intro c hc
  unfold words
  simp only
  split
  · exact Nat.le_refl _
  · have := hf c; omega

end Db
end Varisat.Solver
