import Verif.Proof.Solver.Db
import Verif.Proof.Solver.Propagate
/-!
# Garbage collection and the construction of watch lists
-/
namespace Varisat.Solver

variable {α : Type} [LinearOrder α]

/-- Watching the first two literals of a new clause. -/
theorem WOk.add {C C' : Cl} {w : Lit → List Watch} (h : WOk C w) {c : Nat} (hc : ¬ C.live c) {l0 l1 : Lit}
    {tl : List Lit} (hl : C'.lits c = l0 :: l1 :: tl) (hne : l0 ≠ l1)
    (hsame : ∀ d, C.live d → C'.lits d = C.lits d) (hlive : ∀ d, C'.live d ↔ C.live d ∨ d = c) :
    WOk C' (addWatch (addWatch w l0.neg ⟨c, l1⟩) l1.neg ⟨c, l0⟩) := by
  have hne' : l1.neg ≠ l0.neg := fun h => hne (Lit.neg_inj h).symm
  have hw : ∀ l, addWatch (addWatch w l0.neg ⟨c, l1⟩) l1.neg ⟨c, l0⟩ l =
      w l ++ ((if l = l0.neg then [⟨c, l1⟩] else []) ++ if l = l1.neg then [⟨c, l0⟩] else []) := by
    intro l
    unfold addWatch put
    by_cases h1 : l = l1.neg
    · subst h1; simp [hne']
    · by_cases h0 : l = l0.neg
      · subst h0; simp [h1]
      · simp [h1, h0]
  constructor
  · intro d hd x hx
    rw [hw]
    rcases (hlive d).1 hd with h1 | rfl
    · rw [hsame d h1] at hx
      obtain ⟨y, hy, hyc⟩ := h.has d h1 x hx
      exact ⟨y, by simp [hy], hyc⟩
    · rw [hl] at hx
      simp only [List.take_succ_cons, List.take_zero, List.mem_cons, List.not_mem_nil, or_false] at hx
      rcases hx with rfl | rfl
      · exact ⟨⟨d, l1⟩, by simp, rfl⟩
      · exact ⟨⟨d, l0⟩, by simp, rfl⟩
  · intro l y hy
    rw [hw, List.mem_append, List.mem_append] at hy
    rcases hy with hy | hy | hy
    · obtain ⟨a, b, b2⟩ := h.good l y hy
      rw [hsame _ a]
      exact ⟨(hlive _).2 (.inl a), b, b2⟩
    · split at hy
      · rename_i he
        rw [List.mem_singleton] at hy
        subst hy he
        exact ⟨(hlive c).2 (.inr rfl), by rw [hl]; simp, by rw [hl]; simp⟩
      · simp at hy
    · split at hy
      · rename_i he
        rw [List.mem_singleton] at hy
        subst hy he
        exact ⟨(hlive c).2 (.inr rfl), by rw [hl]; simp, by rw [hl]; simp⟩
      · simp at hy
  · intro l
    rw [hw, List.map_append, List.nodup_append]
    refine ⟨h.nodup l, ?_, ?_⟩
    · by_cases h1 : l = l0.neg
      · have : l ≠ l1.neg := by rw [h1]; exact fun h => hne' h.symm
        simp [h1, hne'.symm]
      · simp [h1]
        split <;> simp
    · intro a ha b hb hab
      have hac : C.live a := by
        obtain ⟨y, hy, rfl⟩ := List.mem_map.1 ha
        exact (h.good l y hy).1
      have : b = c := by
        obtain ⟨y, hy, rfl⟩ := List.mem_map.1 hb
        rw [List.mem_append] at hy
        rcases hy with hy | hy
        · split at hy
          · simp at hy; rw [hy]
          · simp at hy
        · split at hy
          · simp at hy; rw [hy]
          · simp at hy
      rw [hab, this] at hac
      exact hc hac

namespace Db

theorem enableLoop_ok {db : Db α} {bin : Lit → List Lit} : ∀ (cs : List Nat) (done : List Nat) (w : Wl), w.enabled = true →
    (done ++ cs).Nodup → (∀ c ∈ cs, 3 ≤ (db.lits c).length ∧ ((db.lits c).map Lit.var).Nodup) →
    WOk ⟨bin, db.lits, (· ∈ done)⟩ w.watches →
    ∃ w', db.enableLoop cs w = some w' ∧ w'.enabled = true ∧ WOk ⟨bin, db.lits, (· ∈ done ++ cs)⟩ w'.watches
  | [], done, w, he, _, _, h => ⟨w, rfl, he, by simpa using h⟩
  | c :: cs, done, w, he, hn, hl, h => by
    obtain ⟨h1, h2⟩ := hl c (by simp)
    rw [enableLoop]
    match hlc : db.lits c, h1 with
    | l0 :: l1 :: tl, _ =>
      simp only
      rw [hlc] at h2
      have hne : l0 ≠ l1 := by
        rintro rfl; simp at h2
      have hw : w.watchClause c l0 l1 =
          { w with watches := addWatch (addWatch w.watches l0.neg ⟨c, l1⟩) l1.neg ⟨c, l0⟩ } := if_pos he
      rw [hw]
      have hcd : c ∉ done := by
        rw [List.nodup_append] at hn
        intro hd; exact hn.2.2 c hd c (by simp) rfl
      have hadd := WOk.add (C' := ⟨bin, db.lits, (· ∈ done ++ [c])⟩) h hcd hlc hne (fun _ _ => rfl)
        (fun d => by simp)
      obtain ⟨w', a, b, b2⟩ := enableLoop_ok cs (done ++ [c])
        { w with watches := addWatch (addWatch w.watches l0.neg ⟨c, l1⟩) l1.neg ⟨c, l0⟩ } he (by simpa using hn)
        (fun d hd => hl d (by simp [hd])) hadd
      exact ⟨w', a, b, by simpa using b2⟩

theorem WOk.empty (bin : Lit → List Lit) (lits : Nat → List Lit) : WOk ⟨bin, lits, (· ∈ ([] : List Nat))⟩ (fun _ => []) :=
  ⟨by simp, by simp, by simp⟩

theorem WOk.congr {C C' : Cl} {w : Lit → List Watch} (h : WOk C w) (hl : C'.lits = C.lits)
    (hv : ∀ c, C'.live c ↔ C.live c) : WOk C' w := by
  constructor
  · intro c hc; rw [hl]; exact h.has c ((hv c).1 hc)
  · intro l y hy
    obtain ⟨a, b, c⟩ := h.good l y hy
    rw [hl]; exact ⟨(hv _).2 a, b, c⟩
  · exact h.nodup

theorem mem_iter {db : Db α} {c : Nat} : c ∈ db.iter ↔ db.Live c := by
  unfold iter Live; rw [List.mem_filter]; simp

/-- Enabled watch lists are complete. -/
theorem enableWatchlists_ok {db : Db α} {bin : Lit → List Lit} (h : DbInv db) {w : Wl}
    (hl : ∀ c, db.Live c → 3 ≤ (db.lits c).length ∧ ((db.lits c).map Lit.var).Nodup)
    (hw : w.enabled = true → WOk ⟨bin, db.lits, db.Live⟩ w.watches) :
    ∃ w', db.enableWatchlists w = some w' ∧ w'.enabled = true ∧ WOk ⟨bin, db.lits, db.Live⟩ w'.watches := by
  unfold enableWatchlists
  split
  · rename_i he; exact ⟨w, rfl, he, hw he⟩
  · obtain ⟨w', a, b, c⟩ := enableLoop_ok (db := db) (bin := bin) db.iter [] { watches := fun _ => [], enabled := true } rfl
      (by rw [List.nil_append]; exact h.nodup.filter _) (fun c hc => hl c (mem_iter.1 hc)) (WOk.empty _ _)
    refine ⟨w', a, b, WOk.congr c rfl (fun c => ?_)⟩
    simp only [List.nil_append]
    exact mem_iter.symm

/-- What marking the asserting clauses does. -/
theorem markAsserting_spec (p : Pt) : ∀ (tr : List Lit) (db : Db α), 
    tr.foldl (fun db lit => match p.reason lit.var with | .long c => db.setMark c true | _ => db) db =
    { db with hdr := fun c => if ∃ l ∈ tr, p.reason l.var = .long c then { db.hdr c with mark := true } else db.hdr c }
  | [], db => by simp
  | l :: tr, db => by
    rw [List.foldl_cons, markAsserting_spec p tr]
    cases hr : p.reason l.var with
    | long c =>
      simp only [setMark]
      congr 1
      funext d
      by_cases hd : d = c
      · subst hd; simp [hr]
      · rw [put_ne _ _ hd]
        have : (∃ m ∈ l :: tr, p.reason m.var = .long d) ↔ ∃ m ∈ tr, p.reason m.var = .long d := by
          constructor
          · rintro ⟨m, hm, h⟩
            rcases List.mem_cons.1 hm with rfl | hm
            · rw [hr] at h; simp at h; exact absurd h.symm hd
            · exact ⟨m, hm, h⟩
          · rintro ⟨m, hm, h⟩; exact ⟨m, by simp [hm], h⟩
        simp only [this]
    | unit =>
      simp only
      congr 1
      funext d
      have : (∃ m ∈ l :: tr, p.reason m.var = .long d) ↔ ∃ m ∈ tr, p.reason m.var = .long d := by
        constructor
        · rintro ⟨m, hm, h⟩
          rcases List.mem_cons.1 hm with rfl | hm
          · rw [hr] at h; simp at h
          · exact ⟨m, hm, h⟩
        · rintro ⟨m, hm, h⟩; exact ⟨m, by simp [hm], h⟩
      simp only [this]
    | binary x =>
      simp only
      congr 1
      funext d
      have : (∃ m ∈ l :: tr, p.reason m.var = .long d) ↔ ∃ m ∈ tr, p.reason m.var = .long d := by
        constructor
        · rintro ⟨m, hm, h⟩
          rcases List.mem_cons.1 hm with rfl | hm
          · rw [hr] at h; simp at h
          · exact ⟨m, hm, h⟩
        · rintro ⟨m, hm, h⟩; exact ⟨m, by simp [hm], h⟩
      simp only [this]

/-- Only reasons differ. -/
structure NodeSame (p q : Pt) : Prop where
  value : q.value = p.value
  last : q.last = p.last
  trail : q.trail = p.trail
  qhead : q.qhead = p.qhead
  decisions : q.decisions = p.decisions
  unitsRemoved : q.unitsRemoved = p.unitsRemoved
  level : ∀ v, (q.node v).level = (p.node v).level
  depth : ∀ v, (q.node v).depth = (p.node v).depth

theorem NodeSame.refl (p : Pt) : NodeSame p p := ⟨rfl, rfl, rfl, rfl, rfl, rfl, fun _ => rfl, fun _ => rfl⟩
theorem NodeSame.trans {p q r : Pt} (h : NodeSame p q) (k : NodeSame q r) : NodeSame p r :=
  ⟨k.value.trans h.value, k.last.trans h.last, k.trail.trans h.trail, k.qhead.trans h.qhead,
    k.decisions.trans h.decisions, k.unitsRemoved.trans h.unitsRemoved,
    fun v => (k.level v).trans (h.level v), fun v => (k.depth v).trans (h.depth v)⟩

/-- What the collection loop gives; `g` gives the new references. -/
structure Moved (old : Db α) (cs : List Nat) (new : Db α) (p : Pt) (new' : Db α) (p' : Pt) (g : Nat → Nat) : Prop where
  clauses : new'.clauses = new.clauses ++ (cs.filter (fun c => !(old.hdr c).deleted)).map g
  byTier : ∀ t, new'.byTier t = new.byTier t ++ (cs.filter (old.inTier t)).map g
  mono : (cs.filter (fun c => !(old.hdr c).deleted)).Pairwise (fun a b => g a + headerLen + (old.lits a).length ≤ g b)
  old_ : ∀ d, d < new.size → new'.lits d = new.lits d ∧ new'.hdr d = new.hdr d
  new_ : ∀ c ∈ cs, (old.hdr c).deleted = false → new.size ≤ g c ∧ g c + headerLen + (old.lits c).length ≤ new'.size ∧ new'.lits (g c) = old.lits c ∧
    new'.hdr (g c) = { old.hdr c with mark := false }
  size : new'.size = new.size + (cs.map old.words).sum
  count : new'.count = new.count
  garbage : new'.garbage = new.garbage
  node : NodeSame p p'
  reason : ∀ c ∈ cs, (old.hdr c).deleted = false → (old.hdr c).mark = true → ∀ l tl, old.lits c = l :: tl →
    p'.reason l.var = .long (g c)
  other : ∀ v, (∀ c ∈ cs, (old.hdr c).deleted = false → (old.hdr c).mark = true → ∀ l tl, old.lits c = l :: tl → l.var ≠ v) →
    p'.node v = p.node v

theorem gcLoop_spec (old : Db α) : ∀ (cs : List Nat) (new : Db α) (p : Pt), cs.Nodup →
    (∀ c ∈ cs, (old.hdr c).deleted = false → 3 ≤ (old.lits c).length) →
    (∀ c ∈ cs, ∀ d ∈ cs, (old.hdr c).deleted = false → (old.hdr d).deleted = false → (old.hdr c).mark = true →
      (old.hdr d).mark = true → ∀ l tl m tm, old.lits c = l :: tl → old.lits d = m :: tm → l.var = m.var → c = d) →
    ∃ new' p' g, gcLoop old cs new p = some (new', p') ∧ Moved old cs new p new' p' g
  | [], new, p, _, _, _ => ⟨new, p, id, rfl, by simp, by simp, by simp, by simp, by simp, by simp, rfl, rfl,
      NodeSame.refl p, by simp, fun _ _ => rfl⟩
  | c :: cs, new, p, hn, hl, hu => by
    rw [List.nodup_cons] at hn
    rw [gcLoop]
    simp only
    by_cases hd : (old.hdr c).deleted = true
    · rw [if_pos hd]
      obtain ⟨new', p', g, h1, h2⟩ := gcLoop_spec old cs new p hn.2 (fun d hd => hl d (by simp [hd]))
        (fun a ha b hb => hu a (by simp [ha]) b (by simp [hb]))
      refine ⟨new', p', g, h1, ?_, ?_, ?_, h2.old_, ?_, ?_, h2.count, h2.garbage, h2.node, ?_, ?_⟩
      · rw [h2.clauses]; simp [hd]
      · intro t; rw [h2.byTier]
        have : old.inTier t c = false := by unfold inTier; simp [hd]
        simp [this]
      · rw [List.filter_cons_of_neg (by simp [hd])]; exact h2.mono
      · intro d hdm hdd
        rcases List.mem_cons.1 hdm with rfl | hdm
        · rw [hd] at hdd; cases hdd
        · exact h2.new_ d hdm hdd
      · rw [h2.size]; simp [words, hd]
      · intro d hdm hdd
        rcases List.mem_cons.1 hdm with rfl | hdm
        · rw [hd] at hdd; cases hdd
        · exact h2.reason d hdm hdd
      · intro v hv
        exact h2.other v (fun d hdm => hv d (by simp [hdm]))
    · rw [if_neg hd]
      simp only [Bool.not_eq_true] at hd
      have h3 := hl c (by simp) hd
      rw [if_neg (by omega)]
      obtain ⟨l, tl, hlc⟩ : ∃ l tl, old.lits c = l :: tl := by
        cases hc : old.lits c with
        | nil => rw [hc] at h3; simp at h3
        | cons l tl => exact ⟨l, tl, rfl⟩
      obtain ⟨N, hN⟩ : ∃ N : Db α, N = { (new.alloc { old.hdr c with mark := false } (old.lits c)).1 with
          clauses := (new.alloc { old.hdr c with mark := false } (old.lits c)).1.clauses ++ [new.size]
          byTier := put (new.alloc { old.hdr c with mark := false } (old.lits c)).1.byTier (old.hdr c).tier
            ((new.alloc { old.hdr c with mark := false } (old.lits c)).1.byTier (old.hdr c).tier ++ [new.size]) } := ⟨_, rfl⟩
      obtain ⟨P, hP⟩ : ∃ P : Pt, P = if (old.hdr c).mark then
          { p with node := put p.node l.var { p.node l.var with reason := .long new.size } } else p := ⟨_, rfl⟩
      have hPN : NodeSame p P := by
        rw [hP]
        split
        · refine ⟨rfl, rfl, rfl, rfl, rfl, rfl, fun v => ?_, fun v => ?_⟩ <;>
          · simp only; unfold put; split
            · rename_i h; rw [h]
            · rfl
        · exact NodeSame.refl p
      have hNs : N.size = new.size + headerLen + (old.lits c).length := by rw [hN]; rfl
      have hNs' : new.size < N.size := by rw [hNs]; unfold headerLen; omega
      obtain ⟨new', p', g, h1, h2⟩ := gcLoop_spec old cs N P hn.2 (fun d hd => hl d (by simp [hd]))
        (fun a ha b hb => hu a (by simp [ha]) b (by simp [hb]))
      have heq : gcLoop old cs { (new.alloc { old.hdr c with mark := false } (old.lits c)).1 with
          clauses := (new.alloc { old.hdr c with mark := false } (old.lits c)).1.clauses ++
            [(new.alloc { old.hdr c with mark := false } (old.lits c)).2]
          byTier := put (new.alloc { old.hdr c with mark := false } (old.lits c)).1.byTier (old.hdr c).tier
            ((new.alloc { old.hdr c with mark := false } (old.lits c)).1.byTier (old.hdr c).tier ++
            [(new.alloc { old.hdr c with mark := false } (old.lits c)).2]) }
          (if (old.hdr c).mark then
            match old.lits c with
            | l :: _ => { p with node := put p.node l.var { p.node l.var with
                reason := .long (new.alloc { old.hdr c with mark := false } (old.lits c)).2 } }
            | [] => p
          else p) = gcLoop old cs N P := by
        rw [hN, hP, hlc]
        rfl
      refine ⟨new', p', put g c new.size, heq.trans h1, ?_, ?_, ?_, ?_, ?_, ?_, ?_, ?_, hPN.trans h2.node, ?_, ?_⟩
      · rw [h2.clauses, hN]
        simp only [alloc]
        rw [List.filter_cons_of_pos (by simp [hd])]
        simp only [List.map_cons, put_same, List.append_assoc, List.singleton_append]
        congr 2
        apply List.map_congr_left
        intro d hdm
        rw [put_ne]
        rintro rfl; exact hn.1 (List.mem_filter.1 hdm).1
      · intro t
        rw [h2.byTier, hN]
        simp only [alloc]
        have hmap : (cs.filter (old.inTier t)).map (put g c new.size) = (cs.filter (old.inTier t)).map g := by
          apply List.map_congr_left
          intro d hdm
          rw [put_ne]
          rintro rfl; exact hn.1 (List.mem_filter.1 hdm).1
        by_cases ht : t = (old.hdr c).tier
        · have : old.inTier t c = true := by unfold inTier; simp [hd, ht]
          rw [List.filter_cons_of_pos this, ht, put_same, ← ht]
          simp [hmap]
        · have : ¬ old.inTier t c = true := by unfold inTier; simp [Ne.symm ht]
          rw [List.filter_cons_of_neg this, put_ne _ _ ht, hmap]
      · rw [List.filter_cons_of_pos (by simp [hd]), List.pairwise_cons]
        constructor
        · intro d hdm
          have hdm' := List.mem_filter.1 hdm
          have : d ≠ c := by rintro rfl; exact hn.1 hdm'.1
          rw [put_same, put_ne _ _ this]
          have := (h2.new_ d hdm'.1 (by simpa using hdm'.2)).1
          omega
        · refine h2.mono.imp_of_mem ?_
          intro a b ha hb hab
          rw [put_ne, put_ne]
          · exact hab
          · rintro rfl; exact hn.1 (List.mem_filter.1 hb).1
          · rintro rfl; exact hn.1 (List.mem_filter.1 ha).1
      · intro d hdl
        obtain ⟨a, b⟩ := h2.old_ d (by omega)
        rw [a, b, hN]
        simp only [alloc]
        rw [put_ne _ _ (by omega), put_ne _ _ (by omega)]
        exact ⟨rfl, rfl⟩
      · intro d hdm hdd
        rcases List.mem_cons.1 hdm with rfl | hdm
        · rw [put_same]
          obtain ⟨a, b⟩ := h2.old_ new.size hNs'
          refine ⟨Nat.le_refl _, by rw [h2.size]; omega, ?_, ?_⟩
          · rw [a, hN]; simp [alloc]
          · rw [b, hN]; simp [alloc]
        · have : d ≠ c := fun he => hn.1 (he ▸ hdm)
          rw [put_ne _ _ this]
          obtain ⟨a, b, b2⟩ := h2.new_ d hdm hdd
          exact ⟨by omega, b, b2⟩
      · rw [h2.size, hNs]
        simp only [List.map_cons, List.sum_cons]
        have : old.words c = headerLen + (old.lits c).length := by unfold words; simp [hd]
        omega
      · rw [h2.count, hN]; rfl
      · rw [h2.garbage, hN]; rfl
      · intro d hdm hdd hdmk m tm hdl
        rcases List.mem_cons.1 hdm with rfl | hdm
        · rw [put_same]
          rw [hlc] at hdl
          obtain ⟨rfl, rfl⟩ := List.cons.inj hdl
          unfold Pt.reason
          rw [h2.other l.var]
          · rw [hP, if_pos hdmk]; simp
          · intro x hx hxd hxm y ty hxl hv
            have := hu x (by simp [hx]) d (by simp) hxd hdd hxm hdmk y ty l tl hxl hlc hv
            subst this; exact hn.1 hx
        · have : d ≠ c := fun he => hn.1 (he ▸ hdm)
          rw [put_ne _ _ this]
          exact h2.reason d hdm hdd hdmk m tm hdl
      · intro v hv
        rw [h2.other v (fun d hdm => hv d (by simp [hdm])), hP]
        split
        · rename_i hm
          have := hv c (by simp) hd hm l tl hlc
          simp only
          rw [put_ne _ _ (Ne.symm this)]
        · rfl

end Db

/-- Renaming the references of reasons. -/
def Reason.rename (g : Nat → Nat) : Reason → Reason
  | .long c => .long (g c)
  | r => r

/-- The result of a garbage collection. -/
structure Collected (db : Db α) (p : Pt) (db' : Db α) (p' : Pt) (g : Nat → Nat) : Prop where
  inv : DbInv db'
  clauses : db'.clauses = db.iter.map g
  inj : ∀ c d, db.Live c → db.Live d → g c = g d → c = d
  live : ∀ d, db'.Live d ↔ ∃ c, db.Live c ∧ g c = d
  lits : ∀ c, db.Live c → db'.lits (g c) = db.lits c
  hdr : ∀ c, db.Live c → db'.hdr (g c) = db.hdr c
  node : Db.NodeSame p p'
  reason : ∀ l ∈ p.trail, p'.reason l.var = (p.reason l.var).rename g
  off : ∀ v, (∀ l ∈ p.trail, l.var ≠ v) → p'.node v = p.node v

theorem Db.collectNow_ok {db : Db α} {p : Pt} (h : DbInv db) (hp : p.Ok) (w : Wl)
    (hl : ∀ c, db.Live c → 3 ≤ (db.lits c).length)
    (hr : ∀ l ∈ p.trail, ∀ c, p.reason l.var = .long c → db.Live c ∧ ∃ rest, db.lits c = l :: rest) :
    ∃ db' p' g, db.collectNow p w = some (db', p', w.disable) ∧ Collected db p db' p' g := by
  unfold collectNow
  have hm := markAsserting_spec p p.trail db
  have hm' : db.markAsserting p = { db with hdr := fun c => if ∃ l ∈ p.trail, p.reason l.var = .long c then { db.hdr c with mark := true } else db.hdr c } := hm
  rw [hm']
  simp only
  have hgs : db.garbage ≤ db.size := by have := h.garbage; omega
  rw [if_pos hgs]
  obtain ⟨O, hO⟩ : ∃ O : Db α, O = { db with hdr := fun c => if ∃ l ∈ p.trail, p.reason l.var = .long c then { db.hdr c with mark := true } else db.hdr c } := ⟨_, rfl⟩
  rw [← hO]
  have hOd : ∀ c, (O.hdr c).deleted = (db.hdr c).deleted := by
    intro c; rw [hO]; simp only; split <;> rfl
  have hOt : ∀ c, (O.hdr c).tier = (db.hdr c).tier := by
    intro c; rw [hO]; simp only; split <;> rfl
  have hOl : O.lits = db.lits := by rw [hO]
  have hmk : ∀ c, db.Live c → ((O.hdr c).mark = true ↔ ∃ l ∈ p.trail, p.reason l.var = .long c) := by
    intro c hc
    rw [hO]; simp only
    split
    · rename_i h1; simp [h1]
    · rename_i h1; simp [h1, h.mark c hc]
  obtain ⟨db', p', g, h1, h2⟩ := gcLoop_spec O db.clauses
    { O with lits := fun _ => [], size := 0, clauses := [], byTier := fun _ => [], garbage := 0 } p h.nodup
    (fun c hc hcd => by rw [hOl]; exact hl c ⟨hc, by rw [← hOd]; exact hcd⟩)
    (fun c hc d hd hcd hdd hcm hdm l tl m tm hcl hdl hv => by
      rw [hOd] at hcd hdd
      rw [hOl] at hcl hdl
      rw [hmk c ⟨hc, hcd⟩] at hcm
      rw [hmk d ⟨hd, hdd⟩] at hdm
      obtain ⟨x, hx, hxr⟩ := hcm
      obtain ⟨y, hy, hyr⟩ := hdm
      obtain ⟨_, r1, e1⟩ := hr x hx c hxr
      obtain ⟨_, r2, e2⟩ := hr y hy d hyr
      rw [hcl] at e1
      rw [hdl] at e2
      obtain ⟨rfl, -⟩ := List.cons.inj e1
      obtain ⟨rfl, -⟩ := List.cons.inj e2
      rw [hv, hyr] at hxr
      exact (Reason.long.inj hxr).symm)
  have hfil : db.clauses.filter (fun c => !(O.hdr c).deleted) = db.iter := by
    unfold iter
    apply List.filter_congr
    intro c _; rw [hOd]
  have hnew : ∀ c, db.Live c → db'.lits (g c) = db.lits c ∧ db'.hdr (g c) = db.hdr c ∧
      g c + headerLen + (db.lits c).length ≤ db'.size := by
    intro c hc
    obtain ⟨_, a, b, b2⟩ := h2.new_ c hc.1 (by rw [hOd]; exact hc.2)
    rw [hOl] at a
    refine ⟨by rw [b, hOl], ?_, a⟩
    rw [b2, hO]
    simp only
    have := h.mark c hc
    split
    · cases hx : db.hdr c; rw [hx] at this; simp only at this; subst this; rfl
    · cases hx : db.hdr c; rw [hx] at this; simp only at this; subst this; rfl
  have hcls : db'.clauses = db.iter.map g := by rw [h2.clauses, hfil]; simp
  have hlay := h2.mono
  rw [hfil, hOl] at hlay
  have hmono : db.iter.Pairwise (fun a b => g a < g b) := hlay.imp (fun hab => by unfold headerLen at hab; omega)
  have hinj : ∀ c d, db.Live c → db.Live d → g c = g d → c = d := by
    intro c d hc hd hgd
    by_contra hne
    have hc' := mem_iter.2 hc
    have hd' := mem_iter.2 hd
    have := List.Pairwise.forall_of_forall_of_flip (R := fun a b => a ≠ b → g a ≠ g b) (l := db.iter)
      (by intro x _ h; exact absurd rfl h) (hmono.imp (fun hab _ => by omega))
      (hmono.imp (fun hab _ => by omega)) hc' hd'
    exact this hne hgd
  have hlive : ∀ d, db'.Live d ↔ ∃ c, db.Live c ∧ g c = d := by
    intro d
    unfold Live
    rw [hcls, List.mem_map]
    constructor
    · rintro ⟨⟨c, hc, rfl⟩, _⟩; exact ⟨c, mem_iter.1 hc, rfl⟩
    · rintro ⟨c, hc, rfl⟩
      refine ⟨⟨c, mem_iter.2 hc, rfl⟩, ?_⟩
      rw [(hnew c hc).2.1]; exact hc.2
  have hby : ∀ t, db'.byTier t = (db.clauses.filter (db.inTier t)).map g := by
    intro t
    rw [h2.byTier]
    simp only [List.nil_append]
    congr 1
    apply List.filter_congr
    intro c _
    unfold inTier; rw [hOd, hOt]
  have hsz : db'.size = (db.clauses.map db.words).sum := by
    rw [h2.size]
    simp only [Nat.zero_add]
    congr 1
    apply List.map_congr_left
    intro c _
    unfold words; rw [hOd, hOl]
  have hres : Option.map (fun r => (r.1, r.2, w.disable)) (gcLoop O db.clauses
      { O with lits := fun _ => [], size := 0, clauses := [], byTier := fun _ => [], garbage := 0 } p) =
      some (db', p', w.disable) := by rw [h1]; rfl
  refine ⟨db', p', g, by rw [hO] at hres ⊢; exact hres, ⟨⟨?_, ?_, ?_, ?_, ?_, ?_, ?_, ?_, ?_, ?_⟩, hcls, hinj, hlive, fun c hc => (hnew c hc).1,
    fun c hc => (hnew c hc).2.1, h2.node, ?_, ?_⟩⟩
  · rw [hcls]
    exact List.pairwise_map.2 (hmono.imp (fun hab => by omega))
  · rw [hcls]
    intro d hd
    obtain ⟨c, hc, rfl⟩ := List.mem_map.1 hd
    have := (hnew c (mem_iter.1 hc)).2.2
    unfold headerLen at this; omega
  · intro d hd
    obtain ⟨c, hc, rfl⟩ := (hlive d).1 hd
    rw [hby, (hnew c hc).2.1]
    apply List.mem_map_of_mem
    rw [List.mem_filter]
    exact ⟨hc.1, by unfold inTier; simp [hc.2]⟩
  · intro t d hd
    rw [hby] at hd
    obtain ⟨c, hc, rfl⟩ := List.mem_map.1 hd
    rw [List.mem_filter] at hc
    have hcl : db.Live c := ⟨hc.1, by have := hc.2; unfold inTier at this; simp at this; exact this.1⟩
    exact ⟨by have := (hnew c hcl).2.2; unfold headerLen at this; omega, .inl ((hlive _).2 ⟨c, hcl, rfl⟩).1⟩
  · intro t
    rw [h2.count, hcls, List.countP_map]
    simp only
    rw [hO]
    simp only
    rw [h.count, iter, List.countP_filter]
    apply List.countP_congr
    intro c hc
    simp only [Function.comp]
    by_cases hd : (db.hdr c).deleted = true
    · unfold inTier; simp [hd]
    · simp only [Bool.not_eq_true] at hd
      unfold inTier
      rw [(hnew c ⟨hc, hd⟩).2.1]
      simp [hd]
  · intro d hd
    obtain ⟨c, hc, rfl⟩ := (hlive d).1 hd
    rw [(hnew c hc).2.1]; exact h.mark c hc
  · intro d hd hi
    obtain ⟨c, hc, rfl⟩ := (hlive d).1 hd
    rw [(hnew c hc).2.1] at hi ⊢; exact h.glue c hc hi
  · rw [h2.garbage, hsz, hcls, List.map_map]
    simp only [Nat.add_zero]
    have : db.iter.map (db'.words ∘ g) = db.iter.map db.words := by
      apply List.map_congr_left
      intro c hc
      have hc' := mem_iter.1 hc
      unfold words
      simp only [Function.comp]
      rw [(hnew c hc').1, (hnew c hc').2.1]
    rw [this]
    exact List.Sublist.sum_le_sum (List.filter_sublist.map _) (fun _ _ => Nat.zero_le _)
  · rw [hcls]
    intro d hd
    obtain ⟨c, hc, rfl⟩ := List.mem_map.1 hd
    obtain ⟨k1, _, k2⟩ := hnew c (mem_iter.1 hc)
    rw [k1]; exact k2
  · rw [hcls]
    refine List.pairwise_map.2 (hlay.imp_of_mem (fun {a b} ha _ hab => ?_))
    rw [(hnew a (mem_iter.1 ha)).1]; exact hab
  · intro l hlt
    cases hrl : p.reason l.var with
    | long c =>
      obtain ⟨hc, rest, hlits⟩ := hr l hlt c hrl
      exact h2.reason c hc.1 (by rw [hOd]; exact hc.2) ((hmk c hc).2 ⟨l, hlt, hrl⟩) l rest (by rw [hOl]; exact hlits)
    | unit =>
      unfold Pt.reason at *
      rw [h2.other l.var]
      · exact hrl
      · intro c hc hcd hcm m tm hml hv
        have hcl : db.Live c := ⟨hc, by rw [← hOd]; exact hcd⟩
        obtain ⟨x, hx, hxr⟩ := (hmk c hcl).1 hcm
        obtain ⟨_, r1, e1⟩ := hr x hx c hxr
        rw [← hOl, hml] at e1
        obtain ⟨rfl, -⟩ := List.cons.inj e1
        rw [hv, hrl] at hxr; cases hxr
    | binary y =>
      unfold Pt.reason at *
      rw [h2.other l.var]
      · exact hrl
      · intro c hc hcd hcm m tm hml hv
        have hcl : db.Live c := ⟨hc, by rw [← hOd]; exact hcd⟩
        obtain ⟨x, hx, hxr⟩ := (hmk c hcl).1 hcm
        obtain ⟨_, r1, e1⟩ := hr x hx c hxr
        rw [← hOl, hml] at e1
        obtain ⟨rfl, -⟩ := List.cons.inj e1
        rw [hv, hrl] at hxr; cases hxr
  · intro v hv
    refine h2.other v ?_
    intro c hc hcd hcm m tm hml hmv
    have hcl : db.Live c := ⟨hc, by rw [← hOd]; exact hcd⟩
    obtain ⟨x, hx, hxr⟩ := (hmk c hcl).1 hcm
    obtain ⟨_, r1, e1⟩ := hr x hx c hxr
    rw [← hOl, hml] at e1
    obtain ⟨rfl, -⟩ := List.cons.inj e1
    exact hv m hx hmv

end Varisat.Solver
