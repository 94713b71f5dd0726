import Verif.Proof.Solver.SimDefs
/-!
# Adding and deleting clauses: solver and checker
-/
namespace Varisat.Solver

open Checker (View LitsOk SamplingMode hashOf)

variable {α : Type} [LinearOrder α]

/-- One more of a clause. -/
def more (st : Bool → List Lit → Nat) (red : Bool) (ls : List Lit) : Bool → List Lit → Nat :=
  fun r k => st r k + if ls.Perm k ∧ r = red then 1 else 0

/-- One less of a clause. -/
def less (st : Bool → List Lit → Nat) (red : Bool) (ls : List Lit) : Bool → List Lit → Nat :=
  fun r k => st r k - if ls.Perm k ∧ r = red then 1 else 0

theorem View.store_long {V : View} {red : Bool} {k : List Lit} (h : 2 ≤ k.length) :
    V.store red k = { V with cnt := fun r c => V.cnt r c + if k = c ∧ r = red then 1 else 0 } := by
  match k, h with
  | _ :: _ :: _, _ => rfl

namespace SimC

variable {x : Vars} {st st' : Bool → List Lit → Nat} {V V' : View} {ls : List Lit} {red : Bool}

theorem congr (h : SimC x st V) (he : ∀ r k, Ordin x k → 2 ≤ k.length → st' r k = st r k) : SimC x st' V :=
  ⟨fun r k hk hl => by rw [he r k hk hl]; exact h.cnt r k hk hl, h.only⟩

theorem view (h : SimC x st V) (he : V'.cnt = V.cnt) : SimC x st V' :=
  ⟨fun r k hk hl => by rw [he]; exact h.cnt r k hk hl, fun r k hk => by rw [he]; exact h.only r k hk⟩

theorem store (h : SimC x st V) (hv : VInv x) (ho : Ordin x ls) (hl : 2 ≤ ls.length) :
    SimC x (more st red ls) (V.store red (canon x ls)) := by
  rw [View.store_long (by rw [ho.length hv]; exact hl)]
  constructor
  · intro r k hk hlk
    show V.cnt r (canon x k) + _ = _
    rw [h.cnt r k hk hlk, more]
    congr 1
    simp only [ho.canon_iff hk hv]
  · intro r k hk hc
    simp only at hc
    by_cases hq : canon x ls = k ∧ r = red
    · exact ⟨ls, ho, hq.1.symm⟩
    · rw [if_neg hq] at hc
      exact h.only r k hk hc

theorem del (h : SimC x st V) (hv : VInv x) (ho : Ordin x ls) {p : DeleteProof} :
    SimC x (less st (decide (p = .redundant)) ls) (V.step (.deleteClause (ls.map (glit x)) p)) := by
  constructor
  · intro r k hk hlk
    show V.cnt r (canon x k) - _ = _
    rw [h.cnt r k hk hlk, less]
    congr 1
    simp only [← ho.canon_iff hk hv]
    rfl
  · intro r k hk hc
    refine h.only r k hk (Nat.lt_of_lt_of_le hc (Nat.sub_le _ _))

theorem has (h : SimC x st V) (hv : VInv x) (ho : Ordin x ls) (hl : 2 ≤ ls.length) (hp : 0 < st red ls) :
    V.Has (canon x ls) :=
  ⟨ho.litsOk hv hl, red, by rw [h.cnt red ls ho hl]; exact hp⟩

end SimC

theorem SimU.true_iff {x : Vars} {p : Pt} {V : View} (h : SimU x p V) (hv : VInv x) {l : Lit} (hl : x.pres l.var) :
    V.True (glit x l) ↔ Known p l := by
  obtain ⟨g, hg⟩ := Option.isSome_iff_exists.1 hl
  unfold View.True
  rw [glit_var hg, glit_isNeg, h, KnownG, (hv.gs g l.var).2 hg]
  simp only [Lit.mk'_var_neg]

/-! ### How often a clause is held -/

theorem stored_long {bin : Lit → List Lit} {db : Db α} {red : Bool} {ls : List Lit} (h : ls.length ≠ 2) :
    stored bin db red ls =
      db.iter.countP (fun c => (decide ((db.hdr c).tier ≠ .irred) == red) && decide ((db.lits c).Perm ls)) := by
  match ls, h with
  | [], _ => rfl
  | [_], _ => rfl
  | _ :: _ :: _ :: _, _ => rfl

theorem iter_nodup {db : Db α} (h : db.clauses.Nodup) : db.iter.Nodup := h.filter _

theorem count_split {P : Nat → Bool} {l : List Nat} {c : Nat} (h : c ∈ l) :
    l.countP P = (l.erase c).countP P + if P c then 1 else 0 := by
  rw [(List.perm_cons_erase h).countP_eq, List.countP_cons]

theorem perm_pair {a b c d : Lit} : [a, b].Perm [c, d] ↔ (a = c ∧ b = d) ∨ (a = d ∧ b = c) := by
  constructor
  · intro h
    have h1 := h.mem_iff (a := a)
    simp only [List.mem_cons, List.not_mem_nil, or_false, true_or, true_iff] at h1
    rcases h1 with rfl | rfl
    · have := h.cons_inv
      exact .inl ⟨rfl, by simpa using this⟩
    · have := (h.trans (List.Perm.swap _ _ _)).cons_inv
      exact .inr ⟨rfl, by simpa using this⟩
  · rintro (⟨rfl, rfl⟩ | ⟨rfl, rfl⟩)
    · rfl
    · exact List.Perm.swap _ _ _

theorem Bins.add_stored {b : Bins} {db : Db α} {l0 l1 : Lit} (h : l0.var ≠ l1.var) (r : Bool) (k : List Lit) :
    stored (b.add l0 l1).byLit db r k = more (stored b.byLit db) false [l0, l1] r k := by
  unfold more
  by_cases hk : k.length = 2
  · match k, hk with
    | [c, d], _ =>
      simp only [perm_pair]
      unfold stored
      cases r with
      | true => simp
      | false =>
        simp only [Bool.false_eq_true, if_false, and_true]
        have hne : l0 ≠ l1 := fun e => h (by rw [e])
        unfold Bins.add put
        simp only [Lit.neg_inj_iff, hne, if_false]
        by_cases e1 : c = l1
        · subst e1
          simp [hne, Ne.symm hne, List.count_append, List.count_singleton]
        · by_cases e2 : c = l0
          · subst e2
            simp [hne, Ne.symm hne, List.count_append, List.count_singleton]
          · simp [e1, e2, Ne.symm e1, Ne.symm e2]
  · rw [stored_long hk, stored_long hk, if_neg]
    · simp
    · rintro ⟨hp, _⟩
      exact hk (by rw [← hp.length_eq]; rfl)

theorem Db.addClause_eq {db db' : Db α} {w w' : Wl} {h : Hdr α} {ls : List Lit} {c : Nat}
    (ha : db.addClause w h ls = some (db', w', c)) : 3 ≤ ls.length ∧ c = db.size ∧ db'.clauses = db.clauses ++ [db.size] ∧
      db'.lits = put db.lits db.size ls ∧ db'.hdr = put db.hdr db.size h := by
  match ls with
  | [] => simp [Db.addClause] at ha
  | [_] => simp [Db.addClause] at ha
  | [_, _] => simp [Db.addClause] at ha
  | l0 :: l1 :: l2 :: ls =>
    simp only [Db.addClause, Db.alloc, Option.some.injEq, Prod.mk.injEq] at ha
    obtain ⟨rfl, rfl, rfl⟩ := ha
    exact ⟨by simp, rfl, rfl, rfl, rfl⟩

theorem Db.addClause_iter {db db' : Db α} {w w' : Wl} {h : Hdr α} {ls : List Lit} {c : Nat}
    (ha : db.addClause w h ls = some (db', w', c)) (hd : h.deleted = false) (hlt : ∀ c ∈ db.clauses, c < db.size) :
    db'.iter = db.iter ++ [db.size] := by
  obtain ⟨_, _, e1, _, e3⟩ := Db.addClause_eq ha
  unfold Db.iter
  rw [e1, e3, List.filter_append]
  congr 1
  · refine List.filter_congr fun c hc => ?_
    have := hlt c hc
    rw [put, if_neg (by omega)]
  · simp [put, hd]

theorem Db.addClause_stored {bin : Lit → List Lit} {db db' : Db α} {w w' : Wl} {h : Hdr α} {ls : List Lit} {c : Nat}
    (ha : db.addClause w h ls = some (db', w', c)) (hd : h.deleted = false) (hlt : ∀ c ∈ db.clauses, c < db.size)
    (r : Bool) (k : List Lit) :
    stored bin db' r k = more (stored bin db) (decide (h.tier ≠ .irred)) ls r k := by
  obtain ⟨e0, _, e1, e2, e3⟩ := Db.addClause_eq ha
  unfold more
  by_cases hk : k.length = 2
  · rw [if_neg (fun hq => by have := hq.1.length_eq; omega)]
    match k, hk with
    | [c, d], _ => rfl
  · rw [stored_long hk, stored_long hk, Db.addClause_iter ha hd hlt, List.countP_append]
    congr 1
    · refine List.countP_congr fun c hc => ?_
      have := hlt c (List.mem_filter.1 hc).1
      rw [e2, e3, put, put, if_neg (by omega), if_neg (by omega)]
    · rw [List.countP_singleton, e2, e3, put, put, if_pos rfl, if_pos rfl]
      congr 1
      simp only [Bool.and_eq_true, beq_iff_eq, decide_eq_true_eq, eq_iff_iff]
      tauto

theorem Db.delete_iter {db : Db α} {c : Nat} (hn : db.clauses.Nodup) :
    (db.delete c).iter = db.iter.erase c := by
  rw [(iter_nodup hn).erase_eq_filter]
  unfold Db.iter
  rw [List.filter_filter]
  refine List.filter_congr fun d _ => ?_
  show (!(put db.hdr c _ d).deleted) = _
  unfold put
  by_cases he : d = c
  · simp [he]
  · simp [he]

theorem Db.delete_stored {bin : Lit → List Lit} {db : Db α} {c : Nat} (hn : db.clauses.Nodup) (hc : c ∈ db.iter)
    (h3 : (db.lits c).length ≠ 2) (r : Bool) (k : List Lit) :
    stored bin (db.delete c) r k = less (stored bin db) (decide ((db.hdr c).tier ≠ .irred)) (db.lits c) r k := by
  unfold less
  by_cases hk : k.length = 2
  · rw [if_neg (fun hq => by have := hq.1.length_eq; omega)]
    match k, hk with
    | [c, d], _ => rfl
  · rw [stored_long hk, stored_long hk, Db.delete_iter hn, count_split hc]
    have e : ∀ p q : Nat, p + q - q = p := by omega
    rw [show (if (decide ((db.hdr c).tier ≠ .irred) == r && decide ((db.lits c).Perm k)) = true then 1 else 0) =
      (if (db.lits c).Perm k ∧ r = decide ((db.hdr c).tier ≠ .irred) then 1 else 0) from ?_, e]
    · refine List.countP_congr fun d hd => ?_
      show ((decide ((put db.hdr c _ d).tier ≠ .irred) == r) && decide ((db.lits d).Perm k)) = true ↔ _
      unfold put
      by_cases he : d = c
      · simp [he]
      · simp [he]
    · congr 1
      simp only [Bool.and_eq_true, beq_iff_eq, decide_eq_true_eq, eq_iff_iff]
      tauto

/-- Replacing the literals of a clause. -/
theorem Db.put_stored {bin : Lit → List Lit} {db : Db α} {c : Nat} {ls : List Lit} (hn : db.clauses.Nodup) (hc : c ∈ db.iter)
    (h3 : (db.lits c).length ≠ 2) (h4 : ls.length ≠ 2) (r : Bool) (k : List Lit) :
    stored bin { db with lits := put db.lits c ls } r k =
      less (more (stored bin db) (decide ((db.hdr c).tier ≠ .irred)) ls) (decide ((db.hdr c).tier ≠ .irred)) (db.lits c) r k := by
  unfold less more
  by_cases hk : k.length = 2
  · rw [if_neg (fun hq => by have := hq.1.length_eq; omega), if_neg (fun hq => by have := hq.1.length_eq; omega)]
    match k, hk with
    | [c, d], _ => rfl
  · rw [stored_long hk, stored_long hk, count_split hc]
    have hc' : c ∈ (({ db with lits := put db.lits c ls } : Db α)).iter := hc
    rw [count_split hc']
    have e : ∀ p q r : Nat, p + q + r - q = p + r := by omega
    have key : ∀ ms : List Lit, (if (decide ((db.hdr c).tier ≠ .irred) == r && decide (ms.Perm k)) = true then 1 else 0) =
      (if ms.Perm k ∧ r = decide ((db.hdr c).tier ≠ .irred) then 1 else 0) := by
      intro ms
      congr 1
      simp only [Bool.and_eq_true, beq_iff_eq, decide_eq_true_eq, eq_iff_iff]
      tauto
    rw [key (db.lits c), e]
    show _ + (if (decide ((db.hdr c).tier ≠ .irred) == r && decide ((put db.lits c ls c).Perm k)) = true then 1 else 0) = _
    rw [show put db.lits c ls c = ls by simp [put], key]
    congr 1
    show (db.iter.erase c).countP (fun d => (decide ((db.hdr d).tier ≠ .irred) == r) && decide ((put db.lits c ls d).Perm k)) = _
    refine List.countP_congr fun d hd => ?_
    have hdc : d ≠ c := fun he => by
      subst he
      exact (iter_nodup hn).not_mem_erase hd
    rw [put, if_neg hdc]

/-- Only the clauses not deleted, whether they are redundant and their literals matter. -/
theorem stored_congr {bin : Lit → List Lit} {db db' : Db α} (h1 : db'.iter.Perm db.iter)
    (h2 : ∀ c ∈ db.iter, ((db'.hdr c).tier = .irred ↔ (db.hdr c).tier = .irred) ∧ (db'.lits c).Perm (db.lits c))
    (r : Bool) (k : List Lit) : stored bin db' r k = stored bin db r k := by
  by_cases hk : k.length = 2
  · match k, hk with
    | [c, d], _ => rfl
  · rw [stored_long hk, stored_long hk, h1.countP_eq]
    refine List.countP_congr fun c hc => ?_
    obtain ⟨e1, e2⟩ := h2 c hc
    simp only [ne_eq, e1, Bool.and_eq_true, decide_eq_true_eq, e2.congr_left]

theorem InUse.congr {x : Vars} {bin : Lit → List Lit} {db db' : Db α} (h : InUse x bin db) (h1 : ∀ c ∈ db'.iter, c ∈ db.iter)
    (h2 : ∀ c ∈ db'.iter, (db'.lits c).Perm (db.lits c)) : InUse x bin db' :=
  ⟨h.bins, fun c hc => ⟨(h.long c (h1 c hc)).1.perm (h2 c hc).symm, by rw [(h2 c hc).length_eq]; exact (h.long c (h1 c hc)).2⟩⟩

theorem InUse.addBin {x : Vars} {b : Bins} {db : Db α} {l0 l1 : Lit} (h : InUse x b.byLit db) (ho : Ordin x [l0, l1]) :
    InUse x (b.add l0 l1).byLit db := by
  refine ⟨fun c d hd => ?_, h.long⟩
  unfold Bins.add put at hd
  simp only [Lit.neg_inj_iff] at hd
  have hs : Ordin x [l1, l0] := ho.perm (List.Perm.swap _ _ _)
  have hne : l0 ≠ l1 := fun e => by have := ho.nd; simp [e] at this
  by_cases e1 : c = l1
  · subst e1
    simp only [if_true, Ne.symm hne, if_false, List.mem_append, List.mem_singleton] at hd
    rcases hd with hd | rfl
    · exact h.bins _ _ hd
    · exact hs
  · by_cases e2 : c = l0
    · subst e2
      simp only [e1, if_true, if_false, List.mem_append, List.mem_singleton] at hd
      rcases hd with hd | rfl
      · exact h.bins _ _ hd
      · exact ho
    · simp only [e1, e2, if_false] at hd
      exact h.bins _ _ hd

theorem InUse.addClause {x : Vars} {bin : Lit → List Lit} {db db' : Db α} {w w' : Wl} {hd : Hdr α} {ls : List Lit} {c : Nat}
    (h : InUse x bin db) (ha : db.addClause w hd ls = some (db', w', c)) (hdel : hd.deleted = false)
    (hlt : ∀ c ∈ db.clauses, c < db.size) (ho : Ordin x ls) : InUse x bin db' := by
  obtain ⟨e0, _, e1, e2, e3⟩ := Db.addClause_eq ha
  refine ⟨h.bins, fun d hdd => ?_⟩
  rw [Db.addClause_iter ha hdel hlt, List.mem_append, List.mem_singleton] at hdd
  rw [e2]
  rcases hdd with hdd | rfl
  · have := hlt d (List.mem_filter.1 hdd).1
    rw [put, if_neg (by omega)]
    exact h.long d hdd
  · rw [put, if_pos rfl]
    exact ⟨ho, e0⟩

theorem stored_pair {bin : Lit → List Lit} {db : Db α} {a b : Lit} (h : b ∈ bin a.neg) : 0 < stored bin db false [a, b] := by
  simpa [stored, List.count_pos_iff] using h

theorem stored_ref {bin : Lit → List Lit} {db : Db α} {c : Nat} (h : c ∈ db.iter) (h3 : (db.lits c).length ≠ 2) :
    0 < stored bin db (decide ((db.hdr c).tier ≠ .irred)) (db.lits c) := by
  rw [stored_long h3, List.countP_pos_iff]
  exact ⟨c, h, by simp⟩

/-- Clauses are over variables in use. -/
theorem InUse.stored {x : Vars} {bin : Lit → List Lit} {db : Db α} (h : InUse x bin db) {r : Bool} {k : List Lit}
    (hp : 0 < stored bin db r k) : Ordin x k := by
  by_cases hk : k.length = 2
  · match k, hk with
    | [a, b], _ =>
      refine h.bins a b ?_
      cases r with
      | true => simp [Solver.stored] at hp
      | false => simpa [Solver.stored, List.count_pos_iff] using hp
  · rw [stored_long hk, List.countP_pos_iff] at hp
    obtain ⟨c, hc, hq⟩ := hp
    simp only [Bool.and_eq_true, decide_eq_true_eq] at hq
    exact (h.long c hc).1.perm hq.2

end Varisat.Solver
