import Verif.Proof.Solver.Clauses
import Verif.Model.Solver.Analyze
import Mathlib.Data.List.Perm.Subperm
/-!
# Unit propagation keeps the invariants, is complete, and never panics
-/
namespace Varisat.Solver

variable {pres : Nat → Prop} {bin : Lit → List Lit} {live : Nat → Prop}

/-- Binary clauses of the propagated literal. -/
theorem propBinary_ok {C : Cl} {lit : Lit} {ex : Nat → Lit → Prop} :
    ∀ (rest : List Lit) (p : Pt), CInv pres C p → BInv C p (fun l m => l = lit ∧ m ∈ rest) →
      WInv C p ex → p.Done lit → p.level lit.var = p.curLevel → (∀ m ∈ rest, m ∈ C.bin lit) →
      CInv pres C (propBinary lit rest p).1 ∧ WInv C (propBinary lit rest p).1 ex ∧
      Ext p (propBinary lit rest p).1 ∧
      match (propBinary lit rest p).2 with
      | none => BInv C (propBinary lit rest p).1 (fun _ _ => False)
      | some c => BInv C (propBinary lit rest p).1 (fun l _ => l = lit) ∧
          ∃ m, c = .binary m lit.neg ∧ m ∈ C.bin lit ∧ (propBinary lit rest p).1.isFalse m = true
  | [], p, hc, hb, hw, _, _, _ => by
    refine ⟨hc, hw, .refl, ?_⟩
    simp only [propBinary]
    intro l hl m hm
    rcases hb l hl m hm with h | ⟨_, h⟩
    · exact .inl h
    · simp at h
  | x :: rest, p, hc, hb, hw, hd, hlev, hr => by
    rw [propBinary]
    split
    · rename_i hf
      refine ⟨hc, hw, .refl, ?_, x, rfl, hr x (by simp), hf⟩
      intro l hl m hm
      rcases hb l hl m hm with h | ⟨h, _⟩
      · exact .inl h
      · exact .inr h
    · rename_i hf
      have hat := hc.binVars lit x (hr x (by simp))
      split
      · rename_i ht
        have hb' : BInv C p (fun l m => l = lit ∧ m ∈ rest) := by
          intro l hl m hm
          rcases hb l hl m hm with h | ⟨rfl, h⟩
          · exact .inl h
          · rcases List.mem_cons.1 h with rfl | h
            · left
              refine ⟨ht, ?_⟩
              obtain ⟨k, hk⟩ := hc.tr.at_of_true hat.2 ht
              rw [hlev]; exact hc.tr.level_le hk
            · exact .inr ⟨rfl, h⟩
        exact propBinary_ok rest p hc hb' hw hd hlev (fun m hm => hr m (by simp [hm]))
      · rename_i ht
        have hu : p.value x.var = none := Pt.unk_of (by simpa using ht) (by simpa using hf)
        have hla : p.value lit.var ≠ none := hd.assigned hc.tr
        have hc' : CInv pres C (p.enqueue x (.binary lit.neg)) := by
          apply hc.enqueue hu hat.1
          obtain ⟨k, _, hk⟩ := hd
          simp only [Lit.neg_neg]
          exact ⟨⟨k, hk⟩, hr x (by simp)⟩
        have hlev' : (p.enqueue x (.binary lit.neg)).level lit.var = (p.enqueue x (.binary lit.neg)).curLevel := by
          rw [Pt.enqueue_level_of_assigned hu hla]; exact hlev
        have hb' : BInv C (p.enqueue x (.binary lit.neg)) (fun l m => l = lit ∧ m ∈ rest) := by
          intro l hl m hm
          rcases (hb.enqueue hc.tr hu) l hl m hm with h | ⟨rfl, h⟩
          · exact .inl h
          · rcases List.mem_cons.1 h with rfl | h
            · left
              refine ⟨Pt.enqueue_isTrue_self, ?_⟩
              rw [hlev', Pt.enqueue_level_self]; exact Nat.le_refl _
            · exact .inr ⟨rfl, h⟩
        have ih := propBinary_ok rest _ hc' hb' (hw.enqueue hc.tr hu) ((Pt.done_enqueue hc.tr).2 hd) hlev'
          (fun m hm => hr m (by simp [hm]))
        refine ⟨ih.1, ih.2.1, ?_, ih.2.2.2⟩
        exact (Ext.step .refl hu (by simp)).trans ih.2.2.1

theorem findRest_some {p : Pt} {f r : Lit} : ∀ {ls ls' : List Lit}, findRest p f ls = some (r, ls') →
    ∃ a b, ls = a ++ r :: b ∧ ls' = a ++ f :: b ∧ p.isFalse r = false
  | [], _, h => by simp [findRest] at h
  | l :: ls, ls', h => by
    rw [findRest] at h
    split at h
    · rw [Option.map_eq_some_iff] at h
      obtain ⟨⟨r', x⟩, h1, h2⟩ := h
      simp only [Prod.mk.injEq] at h2
      obtain ⟨rfl, rfl⟩ := h2
      obtain ⟨a, b, rfl, rfl, h3⟩ := findRest_some h1
      exact ⟨l :: a, b, rfl, rfl, h3⟩
    · rename_i hf
      simp only [Option.some.injEq, Prod.mk.injEq] at h
      obtain ⟨rfl, rfl⟩ := h
      exact ⟨[], ls, rfl, rfl, by simpa using hf⟩

theorem findRest_none {p : Pt} {f : Lit} : ∀ {ls : List Lit}, findRest p f ls = none →
    ∀ l ∈ ls, p.isFalse l = true
  | [], _ => by simp
  | l :: ls, h => by
    rw [findRest] at h
    split at h
    · rename_i hf
      rw [Option.map_eq_none_iff] at h
      intro x hx
      rcases List.mem_cons.1 hx with rfl | hx
      · exact hf
      · exact findRest_none h x hx
    · simp at h

/-- `C` with the literals of `c` replaced. -/
def Cl.relit (C : Cl) (c : Nat) (new : List Lit) : Cl := { C with lits := put C.lits c new }

theorem CInv.relit {C : Cl} {p : Pt} (h : CInv pres C p) {c : Nat} {new : List Lit}
    (hp : new.Perm (C.lits c))
    (hr : new = C.lits c ∨ ∀ k l, p.At k l → p.reason l.var ≠ .long c) :
    CInv pres (C.relit c new) p := by
  have hlits : ∀ c', (C.relit c new).lits c' = if c' = c then new else C.lits c' := fun _ => rfl
  have hperm : ∀ c', ((C.relit c new).lits c').Perm (C.lits c') := by
    intro c'; rw [hlits]; split
    · subst c'; exact hp
    · rfl
  constructor
  · exact h.tr
  · intro c' hc'
    rw [(hperm c').length_eq]; exact h.len c' hc'
  · intro c' hc'
    rw [((hperm c').map _).nodup_iff]; exact h.nodup c' hc'
  · intro c' hc' l hl
    exact h.vars c' hc' l ((hperm c').mem_iff.1 hl)
  · exact h.binSym
  · exact h.binNe
  · exact h.binVars
  · exact h.pres
  · exact h.dec
  · intro k l hk
    have := h.rs k l hk
    unfold ReasonAt at this ⊢
    cases hre : p.reason l.var with
    | unit => simpa [hre] using this
    | binary x => simp only [hre] at this ⊢; exact this
    | long c' =>
      simp only [hre] at this ⊢
      rw [hlits]
      split
      · subst c'
        rcases hr with hr | hr
        · rw [hr]; exact this
        · exact absurd hre (hr k l hk)
      · exact this

theorem WInv.relit {C : Cl} {p : Pt} {ex : Nat → Lit → Prop} (h : WInv C p ex) {c : Nat} {new : List Lit}
    (hp : new.Perm (C.lits c))
    (hx : ∀ x ∈ new.take 2, x ∈ (C.lits c).take 2 ∨ ¬ p.Done x.neg) :
    WInv (C.relit c new) p ex := by
  intro c' hc' x hx' hd
  have hlits : ∀ c', (C.relit c new).lits c' = if c' = c then new else C.lits c' := fun _ => rfl
  rw [hlits] at hx' ⊢
  split at hx'
  · subst c'
    simp only [if_true]
    rcases hx x hx' with h1 | h1
    · rcases h c hc' x h1 hd with ⟨t, h2, h3⟩ | h2
      · exact .inl ⟨t, hp.mem_iff.2 h2, h3⟩
      · exact .inr h2
    · exact absurd hd h1
  · rename_i hne
    simp only [hne, if_false]
    exact h c' hc' x hx' hd

theorem WOk.relit {C : Cl} {w : Lit → List Watch} (h : WOk C w) {c : Nat} {new : List Lit}
    (hp : new.Perm (C.lits c)) (hx : ∀ x, x ∈ new.take 2 ↔ x ∈ (C.lits c).take 2) :
    WOk (C.relit c new) w := by
  have hlits : ∀ c', (C.relit c new).lits c' = if c' = c then new else C.lits c' := fun _ => rfl
  constructor
  · intro c' hc' x hx'
    apply h.has c' hc'
    rw [hlits] at hx'
    split at hx'
    · subst c'; exact (hx x).1 hx'
    · exact hx'
  · intro l y hy
    obtain ⟨h1, h2, h3⟩ := h.good l y hy
    refine ⟨h1, ?_, ?_⟩ <;> rw [hlits] <;> split
    · rename_i he; rw [he] at h2; exact hp.mem_iff.2 h2
    · exact h2
    · rename_i he; rw [he] at h3; exact (hx _).2 h3
    · exact h3
  · exact h.nodup

/-- The invariant of the loop of `propagate_long`. -/
structure LInv (pres : Nat → Prop) (bin : Lit → List Lit) (live : Nat → Prop) (lit : Lit)
    (kept rest : List Watch) (s : Ps) : Prop where
  c : CInv pres ⟨bin, s.lits, live⟩ s.p
  b : BInv ⟨bin, s.lits, live⟩ s.p (fun _ _ => False)
  w : WInv ⟨bin, s.lits, live⟩ s.p (fun c l => l = lit ∧ c ∈ rest.map Watch.cref)
  ok : WOk ⟨bin, s.lits, live⟩ (put s.watches lit (kept ++ rest))
  done : s.p.Done lit
  lev : s.p.level lit.var = s.p.curLevel

/-- What a round of the loop gives. -/
def LPost (pres : Nat → Prop) (bin : Lit → List Lit) (live : Nat → Prop) (lit : Lit)
    (kept rest : List Watch) (s s' : Ps) : Kept → Prop
  | .keep x => LInv pres bin live lit (kept ++ [x]) rest s' ∧ Ext s.p s'.p
  | .moved => LInv pres bin live lit kept rest s' ∧ Ext s.p s'.p
  | .conflict x => s'.p = s.p ∧ CInv pres ⟨bin, s'.lits, live⟩ s'.p ∧
      WInv ⟨bin, s'.lits, live⟩ s'.p (fun _ l => l = lit) ∧
      WOk ⟨bin, s'.lits, live⟩ (put s'.watches lit (kept ++ [x] ++ rest)) ∧
      live x.cref ∧ (∀ l ∈ s'.lits x.cref, s'.p.isFalse l = true) ∧ lit.neg ∈ s'.lits x.cref

theorem WOk.rename {C : Cl} {w : Lit → List Watch} {lit : Lit} {kept rest : List Watch} {x : Watch} {b : Lit}
    (h : WOk C (put w lit (kept ++ x :: rest))) (hb : b ∈ C.lits x.cref) :
    WOk C (put w lit (kept ++ [⟨x.cref, b⟩] ++ rest)) := by
  constructor
  · intro c hc y hy
    obtain ⟨z, hz, hzc⟩ := h.has c hc y hy
    by_cases he : y.neg = lit
    · rw [he, put_same] at hz ⊢
      simp only [List.mem_append, List.mem_cons] at hz
      rcases hz with hz | rfl | hz
      · exact ⟨z, by simp [hz], hzc⟩
      · exact ⟨⟨z.cref, b⟩, by simp, hzc⟩
      · exact ⟨z, by simp [hz], hzc⟩
    · rw [put_ne _ _ he] at hz ⊢
      exact ⟨z, hz, hzc⟩
  · intro l y hy
    by_cases he : l = lit
    · subst he
      have hg := h.good l
      rw [put_same] at hy hg
      simp only [List.mem_append, List.mem_singleton] at hy
      rcases hy with (hy | rfl) | hy
      · exact hg y (by simp [hy])
      · have := hg x (by simp)
        exact ⟨this.1, hb, this.2.2⟩
      · exact hg y (by simp [hy])
    · have hg := h.good l
      rw [put_ne _ _ he] at hy hg
      exact hg y hy
  · intro l
    have := h.nodup l
    by_cases he : l = lit
    · subst he
      rw [put_same] at this ⊢
      simpa using this
    · rw [put_ne _ _ he] at this ⊢
      exact this

/-- Exceptions for a clause with a true literal are not needed. -/
theorem WInv.drop {C : Cl} {p : Pt} {lit : Lit} {x : Watch} {rest : List Watch} (hc : CInv pres C p)
    (h : WInv C p (fun c l => l = lit ∧ c ∈ (x :: rest).map Watch.cref))
    (hlev : p.level lit.var = p.curLevel) (hl : C.live x.cref)
    (ht : ∃ t ∈ C.lits x.cref, p.isTrue t = true) :
    WInv C p (fun c l => l = lit ∧ c ∈ rest.map Watch.cref) := by
  intro c hcl y hy hd
  rcases h c hcl y hy hd with h1 | ⟨h1, h2⟩
  · exact .inl h1
  · rw [List.map_cons, List.mem_cons] at h2
    rcases h2 with h2 | h2
    · subst h2
      obtain ⟨t, h3, h4⟩ := ht
      left
      refine ⟨t, h3, h4, ?_⟩
      obtain ⟨k, hk⟩ := hc.tr.at_of_true (hc.vars _ hl t h3).2 h4
      have : p.level y.var = p.curLevel := by rw [← hlev, ← h1]; simp
      rw [this]
      exact hc.tr.level_le hk
    · exact .inr ⟨h1, h2⟩

theorem Pt.Ok.done_true {p : Pt} (h : p.Ok) {l : Lit} (hd : p.Done l) : p.isTrue l = true := by
  obtain ⟨k, _, hk⟩ := hd; exact h.at_true hk

theorem longStep_ok {lit : Lit} {x : Watch} {kept rest : List Watch} {s : Ps}
    (h : LInv pres bin live lit kept (x :: rest) s) :
    ∃ s' k, longStep lit x s = some (s', k) ∧ LPost pres bin live lit kept rest s s' k ∧
      ∀ c, (s'.lits c).Perm (s.lits c) := by
  have hg := h.ok.good lit x (by simp)
  obtain ⟨hlive, hbl, hneg⟩ := hg
  have hlive' : live x.cref := hlive
  have hlt : s.p.isTrue lit = true := h.c.tr.done_true h.done
  unfold longStep
  split
  · rename_i hb
    refine ⟨s, .keep x, rfl, ⟨⟨h.c, h.b, ?_, by simpa using h.ok, h.done, h.lev⟩, .refl⟩, fun _ => .refl _⟩
    exact h.w.drop h.c h.lev hlive ⟨x.blocking, hbl, hb⟩
  · rename_i hb
    have hlen := h.c.len _ hlive
    cases hcl : s.lits x.cref with
    | nil => simp [hcl] at hlen
    | cons c0 t =>
    cases t with
    | nil => simp [hcl] at hlen
    | cons c1 tl =>
    simp only [hcl] at hneg hbl
    have hnd := h.c.nodup _ hlive
    simp only [hcl, List.map_cons, List.nodup_cons, List.mem_cons, not_or] at hnd
    simp only
    -- the swap
    obtain ⟨first, hfirst⟩ : ∃ first, first = (if c0 = lit.neg then c1 else c0) := ⟨_, rfl⟩
    have hsec : (if c0 = lit.neg then lit.neg else c1) = lit.neg := by
      split
      · rfl
      · rename_i hne
        simp only [List.take_succ_cons, List.take_zero, List.mem_cons, List.not_mem_nil, or_false] at hneg
        rcases hneg with h1 | h1
        · exact absurd h1.symm hne
        · exact h1.symm
    rw [← hfirst, hsec]
    have hperm : (first :: lit.neg :: tl).Perm (s.lits x.cref) := by
      rw [hcl]
      by_cases he : c0 = lit.neg
      · rw [hfirst, if_pos he, he]; exact List.Perm.swap ..
      · rw [hfirst, if_neg he]; rw [if_neg he] at hsec; rw [hsec]
    have hset : ∀ y, y ∈ (first :: lit.neg :: tl).take 2 ↔ y ∈ (s.lits x.cref).take 2 := by
      intro y
      rw [hcl]
      by_cases he : c0 = lit.neg
      · rw [hfirst, if_pos he, he]; simp [or_comm]
      · rw [hfirst, if_neg he]; rw [if_neg he] at hsec; rw [hsec]
    have hfl : first.var ≠ lit.var := by
      have h2 : ((first :: lit.neg :: tl).map Lit.var).Nodup := by
        rw [(hperm.map _).nodup_iff]; exact h.c.nodup _ hlive
      simp only [List.map_cons, List.nodup_cons, List.mem_cons, not_or, Lit.var_neg] at h2
      exact h2.1.1
    have htlv : ∀ y ∈ tl, y.var ≠ lit.var ∧ y.var ≠ first.var := by
      have h2 : ((first :: lit.neg :: tl).map Lit.var).Nodup := by
        rw [(hperm.map _).nodup_iff]; exact h.c.nodup _ hlive
      simp only [List.map_cons, List.nodup_cons, List.mem_cons, not_or, Lit.var_neg] at h2
      intro y hy
      have hm : y.var ∈ tl.map Lit.var := List.mem_map.2 ⟨y, hy, rfl⟩
      exact ⟨fun he => h2.2.1 (he ▸ hm), fun he => h2.1.2 (he ▸ hm)⟩
    have hreason : ∀ k l, s.p.At k l → s.p.reason l.var = .long x.cref → s.p.isTrue c0 = true := by
      intro k l hk hr
      have := h.c.rs k l hk
      unfold ReasonAt at this
      simp only [hr] at this
      obtain ⟨_, r, hr2, _⟩ := this
      rw [hcl] at hr2
      simp only [List.cons.injEq] at hr2
      rw [hr2.1]; exact h.c.tr.at_true hk
    have hc0 : s.p.isTrue c0 = true → first = c0 := by
      intro h1
      rw [hfirst, if_neg]
      intro h2
      rw [h2, Pt.isTrue_neg, Pt.not_true_false hlt] at h1
      simp at h1
    -- the state after the swap
    have hC : CInv pres ((⟨bin, s.lits, live⟩ : Cl).relit x.cref (first :: lit.neg :: tl)) s.p := by
      apply h.c.relit hperm
      by_cases h1 : s.p.isTrue c0 = true
      · left
        show _ = s.lits x.cref
        rw [hcl, hc0 h1, ← hsec, if_neg]
        intro h2
        rw [h2, Pt.isTrue_neg, Pt.not_true_false hlt] at h1
        simp at h1
      · right
        intro k l hk hr
        exact h1 (hreason k l hk hr)
    have hW : WInv ((⟨bin, s.lits, live⟩ : Cl).relit x.cref (first :: lit.neg :: tl)) s.p
        (fun c l => l = lit ∧ c ∈ (x :: rest).map Watch.cref) :=
      h.w.relit hperm (fun y hy => .inl ((hset y).1 hy))
    have hO : WOk ((⟨bin, s.lits, live⟩ : Cl).relit x.cref (first :: lit.neg :: tl))
        (put s.watches lit (kept ++ x :: rest)) := h.ok.relit hperm hset
    have hl1 : (put s.lits x.cref (first :: lit.neg :: tl)) x.cref = first :: lit.neg :: tl := put_same ..
    have hpall : ∀ {new : List Lit}, new.Perm (s.lits x.cref) →
        ∀ c, (put s.lits x.cref new c).Perm (s.lits c) := by
      intro new hn c
      unfold put
      split
      · rename_i he; rw [he]; exact hn
      · exact .refl _
    have hB : BInv ((⟨bin, s.lits, live⟩ : Cl).relit x.cref (first :: lit.neg :: tl)) s.p (fun _ _ => False) := h.b
    split
    · rename_i ht
      refine ⟨_, _, rfl, ⟨⟨hC, hB, ?_, ?_, h.done, h.lev⟩, .refl⟩, hpall hperm⟩
      · apply hW.drop hC h.lev hlive
        exact ⟨first, by simp [Cl.relit], ht.2⟩
      · exact hO.rename (by simp [Cl.relit])
    · rename_i ht
      have hft : s.p.isTrue first = false := by
        by_cases he : first = x.blocking
        · rw [he]; simpa using hb
        · simp only [ne_eq, not_and, he, not_false_eq_true, true_implies] at ht
          simpa using ht
      have hnr : ∀ k l, s.p.At k l → s.p.reason l.var ≠ .long x.cref := by
        intro k l hk hr
        have := hreason k l hk hr
        rw [hc0 this, this] at hft
        simp at hft
      split
      · rename_i r tl' hfr
        obtain ⟨a, b, rfl, rfl, hrf⟩ := findRest_some hfr
        have hrv := htlv r (by simp)
        have hrn : r.neg ≠ lit := by
          intro he; apply hrv.1; rw [← he]; simp
        rw [if_neg hrn]
        refine ⟨_, _, rfl, ⟨?_, .refl⟩, ?_⟩
        rotate_left
        · simp only
          intro c
          unfold put
          split
          · rename_i he
            rw [he]
            refine List.Perm.trans ?_ hperm
            apply List.Perm.cons
            have h1 : (r :: (a ++ lit.neg :: b)).Perm (r :: lit.neg :: (a ++ b)) :=
              List.Perm.cons _ List.perm_middle
            have h2 : (lit.neg :: (a ++ r :: b)).Perm (lit.neg :: r :: (a ++ b)) :=
              List.Perm.cons _ List.perm_middle
            exact h1.trans ((List.Perm.swap ..).trans h2.symm)
          · exact .refl _
        have hperm2 : (first :: r :: (a ++ lit.neg :: b)).Perm (first :: lit.neg :: (a ++ r :: b)) := by
          apply List.Perm.cons
          have h1 : (r :: (a ++ lit.neg :: b)).Perm (r :: lit.neg :: (a ++ b)) :=
            List.Perm.cons _ List.perm_middle
          have h2 : (lit.neg :: (a ++ r :: b)).Perm (lit.neg :: r :: (a ++ b)) :=
            List.Perm.cons _ List.perm_middle
          exact h1.trans ((List.Perm.swap ..).trans h2.symm)
        have hre : ∀ (g : Nat → List Lit), put (put g x.cref (first :: lit.neg :: (a ++ r :: b))) x.cref
            (first :: r :: (a ++ lit.neg :: b)) = put g x.cref (first :: r :: (a ++ lit.neg :: b)) := by
          intro g; funext j; unfold put; split <;> rfl
        have hrd : ¬ s.p.Done r.neg := by
          intro hd
          have := h.c.tr.done_true hd
          rw [Pt.isTrue_neg, hrf] at this
          simp at this
        refine ⟨?_, h.b, ?_, ?_, h.done, h.lev⟩
        · exact hC.relit (by simpa [Cl.relit] using hperm2) (.inr hnr)
        · have hw2 : WInv ((⟨bin, s.lits, live⟩ : Cl).relit x.cref (first :: r :: (a ++ lit.neg :: b))) s.p
              (fun c l => l = lit ∧ c ∈ (x :: rest).map Watch.cref) := by
            have := hW.relit (c := x.cref) (new := first :: r :: (a ++ lit.neg :: b))
              (by simpa [Cl.relit] using hperm2) (by
                intro y hy
                simp only [List.take_succ_cons, List.take_zero, List.mem_cons, List.not_mem_nil, or_false] at hy
                rcases hy with rfl | rfl
                · left; simp [Cl.relit]
                · exact .inr hrd)
            unfold Cl.relit at this ⊢
            simp only [hre] at this
            exact this
          intro c hcl y hy hd
          simp only [hre] at hy ⊢
          rcases hw2 c hcl y hy hd with h1 | ⟨h1, h2⟩
          · exact .inl h1
          · rw [List.map_cons, List.mem_cons] at h2
            rcases h2 with rfl | h2
            · exfalso
              simp only [put_same, List.take_succ_cons, List.take_zero, List.mem_cons, List.not_mem_nil, or_false] at hy
              rcases hy with rfl | rfl
              · apply hfl; rw [← h1]; simp
              · exact hrn h1
            · exact .inr ⟨h1, h2⟩
        · have hnodup := hO.nodup lit
          rw [put_same, List.map_append, List.map_cons] at hnodup
          have hxk : x.cref ∉ (kept ++ rest).map Watch.cref := by
            rw [List.map_append]
            have := (List.perm_middle.nodup_iff.1 hnodup)
            exact (List.nodup_cons.1 this).1
          simp only [hre]
          have hlk : ∀ c', c' ≠ x.cref → put s.lits x.cref (first :: r :: (a ++ lit.neg :: b)) c' =
              put s.lits x.cref (first :: lit.neg :: (a ++ r :: b)) c' := by
            intro c' hne; rw [put_ne _ _ hne, put_ne _ _ hne]
          have hfn : first.neg ≠ lit := by intro he; apply hfl; rw [← he]; simp
          have hfr' : first.neg ≠ r.neg := by
            intro he; rw [Lit.neg_inj_iff] at he; exact hrv.2 (by rw [he])
          have hw' : ∀ l, l ≠ lit → put s.watches lit (kept ++ x :: rest) l = s.watches l :=
            fun l hl => put_ne _ _ hl
          have haw : ∀ l, l ≠ lit → put (addWatch s.watches r.neg ⟨x.cref, first⟩) lit (kept ++ rest) l =
              if l = r.neg then s.watches r.neg ++ [⟨x.cref, first⟩] else s.watches l := by
            intro l hl; rw [put_ne _ _ hl]; rfl
          constructor
          · intro c' hc' y hy
            by_cases he : c' = x.cref
            · subst he
              simp only [put_same, List.take_succ_cons, List.take_zero, List.mem_cons, List.not_mem_nil, or_false] at hy
              rcases hy with rfl | rfl
              · obtain ⟨z, hz, hzc⟩ := hO.has x.cref hc' y (by simp [Cl.relit])
                rw [hw' _ hfn] at hz
                refine ⟨z, ?_, hzc⟩
                rw [haw _ hfn, if_neg hfr']
                exact hz
              · refine ⟨⟨x.cref, first⟩, ?_, rfl⟩
                rw [haw _ hrn]; simp
            · simp only [hlk c' he] at hy
              obtain ⟨z, hz, hzc⟩ := hO.has c' hc' y hy
              refine ⟨z, ?_, hzc⟩
              by_cases hyl : y.neg = lit
              · rw [hyl, put_same] at hz ⊢
                simp only [List.mem_append, List.mem_cons] at hz ⊢
                rcases hz with hz | rfl | hz
                · exact .inl hz
                · exact absurd hzc.symm he
                · exact .inr hz
              · rw [haw _ hyl]
                rw [hw' _ hyl] at hz
                split
                · rename_i h1; rw [h1] at hz; simp [hz]
                · exact hz
          · intro l y hy
            by_cases hl : l = lit
            · subst hl
              rw [put_same] at hy
              have hyc : y.cref ≠ x.cref := by
                intro he; exact hxk (he ▸ List.mem_map.2 ⟨y, hy, rfl⟩)
              simp only [hlk _ hyc]
              apply hO.good l y
              rw [put_same]
              simp only [List.mem_append, List.mem_cons] at hy ⊢
              rcases hy with hy | hy
              · exact .inl hy
              · exact .inr (.inr hy)
            · rw [haw _ hl] at hy
              have hold : ∀ y ∈ s.watches l, live y.cref ∧
                  y.blocking ∈ put s.lits x.cref (first :: lit.neg :: (a ++ r :: b)) y.cref ∧
                  l.neg ∈ (put s.lits x.cref (first :: lit.neg :: (a ++ r :: b)) y.cref).take 2 := by
                intro y hy
                have := hO.good l y (by rw [hw' _ hl]; exact hy)
                exact this
              have key : ∀ y ∈ s.watches l, live y.cref ∧
                  y.blocking ∈ put s.lits x.cref (first :: r :: (a ++ lit.neg :: b)) y.cref ∧
                  l.neg ∈ (put s.lits x.cref (first :: r :: (a ++ lit.neg :: b)) y.cref).take 2 := by
                intro y hy
                obtain ⟨h1, h2, h3⟩ := hold y hy
                by_cases hyc : y.cref = x.cref
                · refine ⟨h1, ?_, ?_⟩
                  · rw [hyc, put_same] at h2 ⊢; exact hperm2.mem_iff.2 h2
                  · rw [hyc, put_same] at h3 ⊢
                    simp only [List.take_succ_cons, List.take_zero, List.mem_cons, List.not_mem_nil, or_false] at h3 ⊢
                    rcases h3 with h3 | h3
                    · exact .inl h3
                    · exact absurd (Lit.neg_inj h3) hl
                · rw [hlk _ hyc]; exact ⟨h1, h2, h3⟩
              split at hy
              · rename_i hlr
                rw [List.mem_append, List.mem_singleton] at hy
                rcases hy with hy | rfl
                · exact key y (by rw [hlr]; exact hy)
                · refine ⟨hlive', ?_, ?_⟩
                  · simp
                  · rw [hlr]; simp
              · exact key y hy
          · intro l
            by_cases hl : l = lit
            · subst hl
              rw [put_same, List.map_append]
              exact (List.nodup_cons.1 (List.perm_middle.nodup_iff.1 hnodup)).2
            · rw [haw _ hl]
              have hn := hO.nodup l
              rw [hw' _ hl] at hn
              split
              · rename_i hlr
                rw [← hlr, List.map_append, List.nodup_append]
                refine ⟨hn, by simp, ?_⟩
                intro u hu v hv huv
                simp only [List.map_cons, List.map_nil, List.mem_singleton] at hv
                subst hv
                obtain ⟨y, hy, hyc⟩ := List.mem_map.1 hu
                obtain ⟨_, _, h3⟩ := hO.good l y (by rw [hw' _ hl]; exact hy)
                simp only [Cl.relit, hyc, huv, put_same, List.take_succ_cons, List.take_zero, List.mem_cons,
                  List.not_mem_nil, or_false, hlr, Lit.neg_neg] at h3
                rcases h3 with h3 | h3
                · exact hrv.2 (by rw [h3])
                · exact hrn (by rw [h3]; simp)
              · exact hn
      · rename_i hfr
        have htl := findRest_none hfr
        have hWx : WInv ((⟨bin, s.lits, live⟩ : Cl).relit x.cref (first :: lit.neg :: tl)) s.p
            (fun c l => l = lit ∧ c ∈ (x :: rest).map Watch.cref) := hW
        split
        · rename_i hff
          refine ⟨_, _, rfl, ⟨rfl, hC, ?_, ?_, hlive', ?_, ?_⟩, hpall hperm⟩
          · intro c hcl y hy hd
            rcases hW c hcl y hy hd with h1 | h1
            · exact .inl h1
            · exact .inr h1.1
          · exact hO.rename (by simp [Cl.relit])
          · intro l hl
            simp only [put_same, List.mem_cons] at hl
            rcases hl with rfl | rfl | hl
            · exact hff
            · show s.p.isFalse lit.neg = true
              rw [Pt.isFalse_neg]; exact hlt
            · exact htl l hl
          · simp
        · rename_i hff
          have hu : s.p.value first.var = none := Pt.unk_of hft (by simpa using hff)
          have hfv := hC.vars x.cref hlive first (by simp [Cl.relit])
          have hC2 : CInv pres ((⟨bin, s.lits, live⟩ : Cl).relit x.cref (first :: lit.neg :: tl))
              (s.p.enqueue first (.long x.cref)) := by
            apply hC.enqueue hu hfv.1
            refine ⟨hlive, lit.neg :: tl, by simp [Cl.relit], ?_⟩
            intro m hm
            apply hC.tr.at_of_false
            · exact (hC.vars x.cref hlive m (by simp only [Cl.relit, put_same]; exact List.mem_cons_of_mem _ hm)).2
            · rcases List.mem_cons.1 hm with rfl | hm
              · rw [Pt.isFalse_neg]; exact hlt
              · exact htl m hm
          have hlev2 : (s.p.enqueue first (.long x.cref)).level lit.var =
              (s.p.enqueue first (.long x.cref)).curLevel := by
            rw [Pt.enqueue_level_of_assigned hu (h.done.assigned h.c.tr)]; exact h.lev
          refine ⟨_, _, rfl, ⟨⟨hC2, hB.enqueue hC.tr hu, ?_, ?_, (Pt.done_enqueue hC.tr).2 h.done, hlev2⟩,
            .step .refl hu (by simp)⟩, hpall hperm⟩
          · apply (hW.enqueue hC.tr hu).drop hC2 hlev2 hlive
            exact ⟨first, by simp [Cl.relit], Pt.enqueue_isTrue_self⟩
          · exact hO.rename (by simp [Cl.relit])

/-- What the loop of `propagate_long` gives. -/
theorem longLoop_ok {lit : Lit} : ∀ (rest kept : List Watch) (s : Ps),
    LInv pres bin live lit kept rest s →
    ∃ s' o, longLoop lit rest kept s = some (s', o) ∧ Ext s.p s'.p ∧
      (∀ c, (s'.lits c).Perm (s.lits c)) ∧ CInv pres ⟨bin, s'.lits, live⟩ s'.p ∧ WOk ⟨bin, s'.lits, live⟩ s'.watches ∧
      BInv ⟨bin, s'.lits, live⟩ s'.p (fun _ _ => False) ∧
      match o with
      | none => WInv ⟨bin, s'.lits, live⟩ s'.p (fun _ _ => False)
      | some c => WInv ⟨bin, s'.lits, live⟩ s'.p (fun _ l => l = lit) ∧
          ∃ cref, c = .long cref ∧ live cref ∧ (∀ l ∈ s'.lits cref, s'.p.isFalse l = true) ∧
            lit.neg ∈ s'.lits cref
  | [], kept, s, h => by
    refine ⟨_, _, rfl, .refl, fun _ => .refl _, h.c, by simpa using h.ok, h.b, ?_⟩
    intro c hc x hx hd
    rcases h.w c hc x hx hd with h1 | h1
    · exact .inl h1
    · simp at h1
  | x :: rest, kept, s, h => by
    obtain ⟨s', k, h1, h2, hp⟩ := longStep_ok h
    rw [longLoop, h1]
    cases k with
    | keep y =>
      obtain ⟨h2, h3⟩ := h2
      obtain ⟨s2, o, h4, h5, hp2, h6⟩ := longLoop_ok rest (kept ++ [y]) s' h2
      exact ⟨s2, o, h4, h3.trans h5, fun c => (hp2 c).trans (hp c), h6⟩
    | moved =>
      obtain ⟨h2, h3⟩ := h2
      obtain ⟨s2, o, h4, h5, hp2, h6⟩ := longLoop_ok rest kept s' h2
      exact ⟨s2, o, h4, h3.trans h5, fun c => (hp2 c).trans (hp c), h6⟩
    | conflict y =>
      obtain ⟨h2, h3, h4, h5, h6⟩ := h2
      refine ⟨_, _, rfl, ?_, hp, h3, h5, ?_, h4, y.cref, rfl, h6⟩
      · show Ext s.p s'.p
        rw [h2]; exact .refl
      · have := h.b
        intro l hl m hm
        show (s'.p.isTrue m = true ∧ s'.p.level m.var ≤ s'.p.level l.var) ∨ False
        rw [h2]
        exact this l (by rw [← h2]; exact hl) m hm

/-- The whole invariant before and after propagation without conflict. -/
structure PInv (pres : Nat → Prop) (bin : Lit → List Lit) (live : Nat → Prop) (s : Ps) : Prop where
  c : CInv pres ⟨bin, s.lits, live⟩ s.p
  b : BInv ⟨bin, s.lits, live⟩ s.p (fun _ _ => False)
  w : WInv ⟨bin, s.lits, live⟩ s.p (fun _ _ => False)
  ok : WOk ⟨bin, s.lits, live⟩ s.watches

/-- The conflict clause as a list of literals. -/
def Conflict.IsIn (bin : Lit → List Lit) (lits : Nat → List Lit) (live : Nat → Prop) : Conflict → Prop
  | .binary a b => a ∈ bin b.neg
  | .long c => live c

/-- `q` extends `p` and more literals were propagated. -/
structure PExt (p q : Pt) : Prop where
  ext : Ext { p with qhead := q.qhead } q
  le : p.qhead ≤ q.qhead

theorem PExt.trans {p q r : Pt} (h : PExt p q) (h2 : PExt q r) : PExt p r := by
  refine ⟨?_, Nat.le_trans h.le h2.le⟩
  have : ∀ {a b : Pt} (_ : Ext a b) (n : Nat), Ext { a with qhead := n } { b with qhead := n } := by
    intro a b hab n
    induction hab with
    | refl => exact .refl
    | @step q _ _ _ hu hr ih => exact Ext.step (q := { q with qhead := n }) ih hu hr
  have h1 := this h.ext r.qhead
  exact Ext.trans h1 h2.ext

theorem CInv.setQhead {C : Cl} {p : Pt} (h : CInv pres C p) {n : Nat} (h1 : p.qhead ≤ n)
    (h2 : n ≤ p.trail.length) : CInv pres C { p with qhead := n } := by
  have ht := h.tr
  constructor
  · exact ⟨ht.val, ht.nodup, ht.depth, ht.level, ht.off, ht.sorted, ht.dlt, h2,
      fun d hd => Nat.le_trans (ht.dq d hd) h1⟩
  · exact h.len
  · exact h.nodup
  · exact h.vars
  · exact h.binSym
  · exact h.binNe
  · exact h.binVars
  · exact h.pres
  · exact h.dec
  · exact h.rs

/-- What is known about a conflict: a clause with all literals false, one of them of the current
level; the invariants hold up to that literal. -/
structure CRes (pres : Nat → Prop) (C : Cl) (p : Pt) (c : Conflict) : Prop where
  isIn : c.IsIn C.bin C.lits C.live
  false_ : ∀ l ∈ c.lits C.lits, p.isFalse l = true
  att : ∀ l ∈ c.lits C.lits, pres l.var ∧ p.Att l.var
  cur : ∃ lit : Lit, lit.neg ∈ c.lits C.lits ∧ p.Done lit ∧ p.level lit.var = p.curLevel ∧
    BInv C p (fun l _ => l = lit) ∧ WInv C p (fun _ l => l = lit)

/-- The result of propagation. -/
structure PRes (pres : Nat → Prop) (bin : Lit → List Lit) (live : Nat → Prop) (s s' : Ps)
    (o : Option Conflict) : Prop where
  ext : PExt s.p s'.p
  c : CInv pres ⟨bin, s'.lits, live⟩ s'.p
  perm : ∀ c, (s'.lits c).Perm (s.lits c)
  ok : WOk ⟨bin, s'.lits, live⟩ s'.watches
  none_ : o = none → PInv pres bin live s' ∧ s'.p.qhead = s'.p.trail.length
  some_ : ∀ c, o = some c → CRes pres ⟨bin, s'.lits, live⟩ s'.p c

theorem Pt.Ok.length_le {p : Pt} (h : p.Ok) {n : Nat} (hn : ∀ l ∈ p.trail, l.var < n) :
    p.trail.length ≤ n := by
  have h1 : (p.trail.map Lit.var).Subperm (List.range n) := by
    apply List.subperm_of_subset h.nodup
    intro v hv
    obtain ⟨l, hl, rfl⟩ := List.mem_map.1 hv
    exact List.mem_range.2 (hn l hl)
  simpa using h1.length_le

theorem propLoop_ok {n : Nat} (hn : ∀ v, pres v → v < n) : ∀ (fuel : Nat) (s : Ps),
    PInv pres bin live s → n < fuel + s.p.qhead →
    ∃ s' o, propLoop bin fuel s = .ok (s', o) ∧ PRes pres bin live s s' o
  | 0, s, h, hf => by
    exfalso
    have := h.c.tr.length_le (fun l hl => hn _ (h.c.pres l hl))
    have := h.c.tr.qle
    omega
  | fuel + 1, s, h, hf => by
    rw [propLoop]
    cases hl : s.p.trail[s.p.qhead]? with
    | none =>
      refine ⟨s, none, rfl, ⟨.refl, Nat.le_refl _⟩, h.c, fun _ => .refl _, h.ok, fun _ => ⟨h, ?_⟩, by simp⟩
      rw [List.getElem?_eq_none_iff] at hl
      exact Nat.le_antisymm h.c.tr.qle hl
    | some lit =>
      simp only
      have hat : s.p.At s.p.qhead lit := hl
      have hlev : s.p.level lit.var = s.p.curLevel := h.c.tr.pending_level hat (Nat.le_refl _)
      have hc1 : CInv pres ⟨bin, s.lits, live⟩ { s.p with qhead := s.p.qhead + 1 } :=
        h.c.setQhead (by omega) hat.lt
      have hdone : ∀ l, Pt.Done { s.p with qhead := s.p.qhead + 1 } l ↔ s.p.Done l ∨ l = lit := by
        intro l
        constructor
        · rintro ⟨k, hk, hk2⟩
          by_cases hkq : k = s.p.qhead
          · subst hkq
            right
            have : s.p.At s.p.qhead l := hk2
            have := this.symm.trans hat
            simpa using this
          · left; exact ⟨k, by simp at hk; omega, hk2⟩
        · rintro (⟨k, hk, hk2⟩ | rfl)
          · exact ⟨k, by simp; omega, hk2⟩
          · exact ⟨s.p.qhead, by simp, hat⟩
      have hb1 : BInv ⟨bin, s.lits, live⟩ { s.p with qhead := s.p.qhead + 1 }
          (fun l m => l = lit ∧ m ∈ bin lit) := by
        intro l hl m hm
        rcases (hdone l).1 hl with h1 | rfl
        · rcases h.b l h1 m hm with h2 | h2
          · exact .inl h2
          · exact h2.elim
        · exact .inr ⟨rfl, hm⟩
      have hw1 : WInv ⟨bin, s.lits, live⟩ { s.p with qhead := s.p.qhead + 1 } (fun _ l => l = lit) := by
        intro c hc x hx hd
        rcases (hdone _).1 hd with h1 | h1
        · rcases h.w c hc x hx h1 with h2 | h2
          · exact .inl h2
          · exact h2.elim
        · exact .inr h1
      obtain ⟨hc2, hw2, he2, ho2⟩ := propBinary_ok (lit := lit) (ex := fun _ l => l = lit) (bin lit)
        { s.p with qhead := s.p.qhead + 1 } hc1 hb1 hw1 ((hdone lit).2 (.inr rfl)) hlev (fun _ h => h)
      generalize propBinary lit (bin lit) { s.p with qhead := s.p.qhead + 1 } = r at *
      obtain ⟨p2, o2⟩ := r
      simp only at hc2 hw2 he2 ho2 ⊢
      have hd2 : p2.Done lit :=
        ⟨s.p.qhead, by rw [he2.qhead]; simp, he2.at_ hat⟩
      have hlv : s.p.value lit.var ≠ none := by rw [h.c.tr.val lit hat.mem]; simp
      have hlev2 : p2.level lit.var = p2.curLevel := by
        rw [Pt.level, he2.node hlv, he2.curLevel]; exact hlev
      have hpe2 : PExt s.p p2 := by
        refine ⟨?_, ?_⟩
        · rw [he2.qhead]; exact he2
        · rw [he2.qhead]; simp
      cases o2 with
      | some c =>
        obtain ⟨hb2, m, rfl, hm, hmf⟩ := ho2
        refine ⟨_, _, rfl, hpe2, hc2, fun _ => .refl _, h.ok, by simp, ?_⟩
        intro c hc
        simp only [Option.some.injEq] at hc
        subst hc
        have hmv := hc2.binVars lit m hm
        refine ⟨?_, ?_, ?_, lit, ?_, hd2, hlev2, hb2, hw2⟩
        · simpa [Conflict.IsIn] using hm
        · intro l hl
          simp only [Conflict.lits, List.mem_cons, List.not_mem_nil, or_false] at hl
          rcases hl with rfl | rfl
          · exact hmf
          · rw [Pt.isFalse_neg]; exact hc2.tr.done_true hd2
        · intro l hl
          simp only [Conflict.lits, List.mem_cons, List.not_mem_nil, or_false] at hl
          rcases hl with rfl | rfl
          · exact hmv
          · exact hc2.binVars _ _ (hc2.binSym _ _ hm)
        · simp [Conflict.lits]
      | none =>
        simp only at ho2 ⊢
        have hli : LInv pres bin live lit [] (s.watches lit) { s with p := p2 } := by
          refine ⟨hc2, ho2, ?_, ?_, hd2, hlev2⟩
          · intro c hc x hx hd
            rcases hw2 c hc x hx hd with h1 | h1
            · exact .inl h1
            · right
              refine ⟨h1, ?_⟩
              obtain ⟨y, hy, hyc⟩ := h.ok.has c hc x hx
              rw [h1] at hy
              exact List.mem_map.2 ⟨y, hy, hyc⟩
          · have : put s.watches lit ([] ++ s.watches lit) = s.watches := by
              funext j; unfold put; split
              · rename_i hj; rw [hj]; rfl
              · rfl
            simp only [this]
            exact h.ok
        obtain ⟨s3, o3, h3, he3, hp3, hc3, hok3, hb3, ho3⟩ := longLoop_ok _ _ _ hli
        rw [propLong, h3]
        simp only at he3 hp3
        have hpe3 : PExt s.p s3.p := by
          refine hpe2.trans ⟨?_, ?_⟩
          · rw [he3.qhead]; exact he3
          · exact Nat.le_of_eq he3.qhead.symm
        have hd3 : s3.p.Done lit :=
          ⟨s.p.qhead, by rw [he3.qhead, he2.qhead]; simp, he3.at_ (he2.at_ hat)⟩
        have hlv2 : p2.value lit.var ≠ none := hd2.assigned hc2.tr
        have hlev3 : s3.p.level lit.var = s3.p.curLevel := by
          rw [Pt.level, he3.node hlv2, he3.curLevel]; exact hlev2
        cases o3 with
        | some c =>
          obtain ⟨hw3, cref, rfl, hlive, hall, hmem⟩ := ho3
          refine ⟨s3, _, rfl, hpe3, hc3, hp3, hok3, by simp, ?_⟩
          intro c hc
          simp only [Option.some.injEq] at hc
          subst hc
          refine ⟨hlive, hall, hc3.vars cref hlive, lit, hmem, hd3, hlev3, ?_, hw3⟩
          intro l hl m hm
          rcases hb3 l hl m hm with h1 | h1
          · exact .inl h1
          · exact h1.elim
        | none =>
          simp only at ho3 ⊢
          have hq : s3.p.qhead = s.p.qhead + 1 := by rw [he3.qhead, he2.qhead]
          obtain ⟨s4, o4, h4, hr4⟩ := propLoop_ok hn fuel s3 ⟨hc3, hb3, ho3, hok3⟩ (by omega)
          exact ⟨s4, o4, h4, hpe3.trans hr4.ext, hr4.c, fun c => (hr4.perm c).trans (hp3 c), hr4.ok,
            hr4.none_, hr4.some_⟩

/-- With everything propagated no clause is falsified or unit. -/
theorem CInv.complete {C : Cl} {p : Pt} (h : CInv pres C p) (hb : BInv C p (fun _ _ => False))
    (hw : WInv C p (fun _ _ => False)) (hq : p.qhead = p.trail.length) :
    (∀ l m, m ∈ C.bin l → p.isTrue l = true → p.isTrue m = true) ∧
    ∀ c, C.live c → (∃ l ∈ C.lits c, p.isTrue l = true) ∨
      ∃ l m, l ∈ C.lits c ∧ m ∈ C.lits c ∧ l ≠ m ∧ p.value l.var = none ∧ p.value m.var = none := by
  have hdone : ∀ l, p.Att l.var → p.isTrue l = true → p.Done l := by
    intro l ha ht
    obtain ⟨k, hk⟩ := h.tr.at_of_true ha ht
    exact ⟨k, by rw [hq]; exact hk.lt, hk⟩
  constructor
  · intro l m hm hl
    have hla : p.Att l.var := by
      have := (h.binVars _ _ (h.binSym l m hm)).2
      simpa using this
    rcases hb l (hdone l hla hl) m hm with h1 | h1
    · exact h1.1
    · exact h1.elim
  · intro c hc
    by_cases hex : ∃ l ∈ C.lits c, p.isTrue l = true
    · exact .inl hex
    right
    have hlen := h.len c hc
    have hv : ∀ x ∈ (C.lits c).take 2, p.value x.var = none := by
      intro x hx
      have hxm : x ∈ C.lits c := List.mem_of_mem_take hx
      by_contra hne
      have hxt : p.isTrue x = false := by
        by_contra h1
        exact hex ⟨x, hxm, by simpa using h1⟩
      have hxf : p.isFalse x = true := by
        by_contra h1
        exact hne (Pt.unk_of hxt (by simpa using h1))
      have hd : p.Done x.neg :=
        hdone x.neg (by simpa using (h.vars c hc x hxm).2) (by rw [Pt.isTrue_neg]; exact hxf)
      rcases hw c hc x hx hd with ⟨t, h1, h2, _⟩ | h1
      · exact hex ⟨t, h1, h2⟩
      · exact h1.elim
    have hnd := h.nodup c hc
    match hcl : C.lits c with
    | [] => simp [hcl] at hlen
    | [_] => simp [hcl] at hlen
    | a :: b :: tl =>
      rw [hcl] at hv hnd
      refine ⟨a, b, by simp, by simp, ?_, hv a (by simp), hv b (by simp)⟩
      rintro rfl
      simp at hnd

theorem PInv.complete {s : Ps} (h : PInv pres bin live s) (hq : s.p.qhead = s.p.trail.length) :
    (∀ l m, m ∈ bin l → s.p.isTrue l = true → s.p.isTrue m = true) ∧
    ∀ c, live c → (∃ l ∈ s.lits c, s.p.isTrue l = true) ∨
      ∃ l m, l ∈ s.lits c ∧ m ∈ s.lits c ∧ l ≠ m ∧ s.p.value l.var = none ∧ s.p.value m.var = none :=
  h.c.complete h.b h.w hq

end Varisat.Solver
