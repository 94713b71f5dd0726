import Verif.Model.Hash
import Verif.Proof.Lit
import Mathlib.Data.List.Basic
/-! Lemmas about canonical literal lists. -/
namespace Varisat

/-- Strictly increasing codes. -/
abbrev SSorted (ls : List Lit) : Prop := ls.Pairwise (fun a b => a.code < b.code)

theorem Lit.code_inj {a b : Lit} (h : a.code = b.code) : a = b := by
  cases a; cases b; simp_all

theorem mem_insertLit {l x : Lit} {ls : List Lit} : x ∈ insertLit l ls ↔ x = l ∨ x ∈ ls := by
  induction ls with
  | nil => simp [insertLit]
  | cons m ms ih =>
    unfold insertLit; split
    · simp
    · simp only [List.mem_cons, ih]; tauto

theorem mem_sortLits {x : Lit} {ls : List Lit} : x ∈ sortLits ls ↔ x ∈ ls := by
  induction ls with
  | nil => simp [sortLits]
  | cons l ls ih => simp only [sortLits, mem_insertLit, ih, List.mem_cons]

theorem insertLit_sorted {l : Lit} {ls : List Lit} (h : ls.Pairwise (fun a b => a.code ≤ b.code)) :
    (insertLit l ls).Pairwise (fun a b => a.code ≤ b.code) := by
  induction ls with
  | nil => simp [insertLit]
  | cons m ms ih =>
    rw [List.pairwise_cons] at h
    unfold insertLit; split
    · rename_i hle
      rw [List.pairwise_cons]
      refine ⟨?_, List.pairwise_cons.2 h⟩
      intro b hb
      rcases List.mem_cons.1 hb with rfl | hb
      · exact hle
      · have := h.1 b hb; omega
    · rename_i hgt
      rw [List.pairwise_cons]
      refine ⟨?_, ih h.2⟩
      intro b hb
      rcases mem_insertLit.1 hb with rfl | hb
      · omega
      · exact h.1 b hb

theorem sortLits_sorted (ls : List Lit) : (sortLits ls).Pairwise (fun a b => a.code ≤ b.code) := by
  induction ls with
  | nil => simp [sortLits]
  | cons l ls ih => exact insertLit_sorted ih

theorem mem_dedupLits {x : Lit} {ls : List Lit} : x ∈ dedupLits ls ↔ x ∈ ls := by
  fun_induction dedupLits ls with
  | case1 => rfl
  | case2 => rfl
  | case3 l ms ih => rw [ih]; simp
  | case4 l m ms h ih => simp only [List.mem_cons] at ih ⊢; rw [ih]

theorem dedupLits_ssorted {ls : List Lit} (h : ls.Pairwise (fun a b => a.code ≤ b.code)) :
    SSorted (dedupLits ls) := by
  fun_induction dedupLits ls with
  | case1 => simp
  | case2 => simp
  | case3 l ms ih => exact ih (List.pairwise_cons.1 h).2
  | case4 l m ms hne ih =>
    rw [List.pairwise_cons] at h
    refine List.pairwise_cons.2 ⟨?_, ih h.2⟩
    intro b hb
    rw [mem_dedupLits] at hb
    have h1 := h.1 m (by simp)
    have h2 : m.code ≤ b.code := by
      rcases List.mem_cons.1 hb with rfl | hb
      · omega
      · exact (List.pairwise_cons.1 h.2).1 b hb
    have h3 : l.code ≠ m.code := fun e => hne (Lit.code_inj e)
    omega

theorem ssorted_ext {a b : List Lit} (ha : SSorted a) (hb : SSorted b) (h : ∀ l, l ∈ a ↔ l ∈ b) :
    a = b := by
  induction a generalizing b with
  | nil =>
    cases b with
    | nil => rfl
    | cons x xs => have := (h x).2 (by simp); simp at this
  | cons x xs ih =>
    cases b with
    | nil => have := (h x).1 (by simp); simp at this
    | cons y ys =>
      unfold SSorted at ha hb
      rw [List.pairwise_cons] at ha hb
      have hxy : x = y := by
        have h1 := (h x).1 (by simp)
        have h2 := (h y).2 (by simp)
        rcases List.mem_cons.1 h1 with e | h1
        · exact e
        rcases List.mem_cons.1 h2 with e | h2
        · exact e.symm
        have := hb.1 x h1
        have := ha.1 y h2
        omega
      subst hxy
      congr 1
      refine ih ha.2 hb.2 fun l => ?_
      have := h l
      simp only [List.mem_cons] at this
      constructor
      · intro hl
        rcases this.1 (Or.inr hl) with e | e
        · subst e; have := ha.1 l hl; omega
        · exact e
      · intro hl
        rcases this.2 (Or.inr hl) with e | e
        · subst e; have := hb.1 l hl; omega
        · exact e

theorem mem_canonical {x : Lit} {ls : List Lit} : x ∈ (copyCanonical ls).1 ↔ x ∈ ls := by
  simp only [copyCanonical, mem_dedupLits, mem_sortLits]

theorem canonical_ssorted (ls : List Lit) : SSorted (copyCanonical ls).1 :=
  dedupLits_ssorted (sortLits_sorted ls)

theorem Lit.neg_code (l : Lit) : l.neg.code = if l.code % 2 = 0 then l.code + 1 else l.code - 1 := rfl

theorem tautScan_some {m : Lit} {ls : List Lit} (h : SSorted (m :: ls)) :
    tautScan (some m) ls = true ↔ ∃ l ∈ m :: ls, l.neg ∈ m :: ls := by
  induction ls generalizing m with
  | nil =>
    simp only [tautScan, List.mem_singleton, exists_eq_left]
    simp [Lit.neg_ne]
  | cons x xs ih =>
    unfold SSorted at h
    have h' := List.pairwise_cons.1 h
    have hx := List.pairwise_cons.1 h'.2
    have hmx := h'.1 x (by simp)
    unfold tautScan
    by_cases he : m = x.neg
    · subst he
      simp only [if_true, true_iff]
      exact ⟨x, by simp, by simp⟩
    · rw [if_neg (by simpa using he), ih h'.2]
      constructor
      · rintro ⟨l, h1, h2⟩; exact ⟨l, List.mem_cons_of_mem _ h1, List.mem_cons_of_mem _ h2⟩
      · rintro ⟨l, h1, h2⟩
        have key : m.neg ∉ x :: xs := by
          intro hm
          have hlt := h'.1 _ hm
          have hge : x.code ≤ m.neg.code := by
            rcases List.mem_cons.1 hm with e | e
            · exact Nat.le_of_eq (congrArg Lit.code e.symm)
            · exact Nat.le_of_lt (hx.1 _ e)
          rw [Lit.neg_code] at hlt hge
          split at hlt
          · rename_i hev
            rw [if_pos hev] at hge
            have : x.code = m.code + 1 := by omega
            apply he
            apply Lit.code_inj
            rw [Lit.neg_code, if_neg (by omega)]; omega
          · omega
        rcases List.mem_cons.1 h1 with rfl | h1
        · rcases List.mem_cons.1 h2 with e | h2
          · exact absurd e (Lit.neg_ne _)
          · exact absurd h2 key
        · rcases List.mem_cons.1 h2 with e | h2
          · exfalso; apply key; rw [← e]; simpa using h1
          · exact ⟨l, h1, h2⟩

theorem tautScan_none {ls : List Lit} (h : SSorted ls) :
    tautScan none ls = true ↔ ∃ l ∈ ls, l.neg ∈ ls := by
  cases ls with
  | nil => simp [tautScan]
  | cons x xs => unfold tautScan; rw [if_neg (by simp)]; exact tautScan_some h

theorem canonical_taut (ls : List Lit) :
    (copyCanonical ls).2 = true ↔ ∃ l ∈ ls, l.neg ∈ ls := by
  show tautScan none (copyCanonical ls).1 = true ↔ _
  rw [tautScan_none (canonical_ssorted ls)]
  simp only [mem_canonical]

theorem isSubsetLoop_spec {a b : List Lit} {st : Bool} (ha : SSorted a) (hb : SSorted b) :
    isSubsetLoop a b st = true ↔ (∀ l ∈ a, l ∈ b) ∧ (st = true ∨ ∃ l ∈ b, l ∉ a) := by
  induction b generalizing a st with
  | nil =>
    cases a with
    | nil => simp [isSubsetLoop]
    | cons x xs =>
      simp only [isSubsetLoop, Bool.false_eq_true, false_iff, not_and]
      intro h; exact absurd (h x (by simp)) (by simp)
  | cons y ys ih =>
    cases a with
    | nil =>
      simp only [isSubsetLoop]
      simp
    | cons x xs =>
      unfold SSorted at ha hb
      have ha' := List.pairwise_cons.1 ha
      have hb' := List.pairwise_cons.1 hb
      unfold isSubsetLoop
      split
      · rename_i hlt
        simp only [Bool.false_eq_true, false_iff, not_and]
        intro h
        have := h x (by simp)
        rcases List.mem_cons.1 this with e | e
        · subst e; omega
        · have := hb'.1 x e; omega
      · rename_i hge
        split
        · rename_i hgt
          rw [ih ha hb'.2]
          have hy : y ∉ x :: xs := by
            intro h
            rcases List.mem_cons.1 h with e | e
            · subst e; omega
            · have := ha'.1 y e; omega
          constructor
          · rintro ⟨h, -⟩
            exact ⟨fun l hl => List.mem_cons_of_mem _ (h l hl), Or.inr ⟨y, by simp, hy⟩⟩
          · rintro ⟨h, -⟩
            refine ⟨fun l hl => ?_, Or.inl rfl⟩
            rcases List.mem_cons.1 (h l hl) with e | e
            · subst e; exact absurd hl hy
            · exact e
        · rename_i hgt
          have hxy : x = y := Lit.code_inj (by omega)
          subst hxy
          rw [ih ha'.2 hb'.2]
          have hx1 : x ∉ xs := fun h => by have := ha'.1 x h; omega
          have hx2 : x ∉ ys := fun h => by have := hb'.1 x h; omega
          constructor
          · rintro ⟨h, h2⟩
            refine ⟨fun l hl => ?_, ?_⟩
            · rcases List.mem_cons.1 hl with e | e
              · simp [e]
              · exact List.mem_cons_of_mem _ (h l e)
            · rcases h2 with h2 | ⟨l, h1, h2⟩
              · exact Or.inl h2
              · refine Or.inr ⟨l, List.mem_cons_of_mem _ h1, ?_⟩
                simp only [List.mem_cons, not_or]
                exact ⟨fun e => hx2 (e ▸ h1), h2⟩
          · rintro ⟨h, h2⟩
            refine ⟨fun l hl => ?_, ?_⟩
            · rcases List.mem_cons.1 (h l (List.mem_cons_of_mem _ hl)) with e | e
              · subst e; exact absurd hl hx1
              · exact e
            · rcases h2 with h2 | ⟨l, h1, h2⟩
              · exact Or.inl h2
              · simp only [List.mem_cons, not_or] at h2
                rcases List.mem_cons.1 h1 with e | e
                · exact absurd e h2.1
                · exact Or.inr ⟨l, e, h2.2⟩

theorem foldl_xor_perm (f : Lit → Nat) {a b : List Lit} (h : a.Perm b) (x : Nat) :
    a.foldl (fun h l => h ^^^ f l) x = b.foldl (fun h l => h ^^^ f l) x := by
  apply h.foldl_eq' 
  intro l _ m _ z
  rw [Nat.xor_assoc, Nat.xor_assoc, Nat.xor_comm (f l)]

theorem canonical_of_ssorted {ls : List Lit} (h : SSorted ls) : (copyCanonical ls).1 = ls :=
  ssorted_ext (canonical_ssorted ls) h fun _ => mem_canonical

end Varisat
