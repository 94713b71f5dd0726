import Verif.Model.Checker
import Verif.Proof.Sorted
/-!
# C18: clause identity is order-independent
-/
namespace Varisat
open Checker

/-- **C18**: the clause hash used by the solver does not depend on the order of the literals. -/
theorem C18.hash_perm (a b : List Lit) (h : a.Perm b) : clauseHash a = clauseHash b :=
  foldl_xor_perm litHash h 0

theorem xor_swap (z a b : Nat) : z ^^^ a ^^^ b = z ^^^ b ^^^ a := by
  rw [Nat.xor_assoc, Nat.xor_assoc, Nat.xor_comm a]

/-- **C18**: neither does the checker's hash, for any hash width and any renaming of variables. -/
theorem C18.checker_hash_perm (bits : Nat) (names : Nat → Option Nat) (a b : List Lit)
    (h : a.Perm b) : hashOf bits names a = hashOf bits names b := by
  unfold hashOf
  simp only
  congr 1
  apply h.foldl_eq'
  intro l _ m _ z
  cases names l.var <;> cases names m.var <;> exact xor_swap _ _ _

/-- **C18**: two literal lists have the same canonical form exactly when they contain the same
literals. -/
theorem C18.canonical_eq_iff (a b : List Lit) :
    (copyCanonical a).1 = (copyCanonical b).1 ↔ ∀ l, l ∈ a ↔ l ∈ b := by
  constructor
  · intro h l
    rw [← mem_canonical (ls := a), h, mem_canonical]
  · intro h
    exact ssorted_ext (canonical_ssorted a) (canonical_ssorted b) fun l => by
      rw [mem_canonical, mem_canonical, h l]

/-- The canonical form contains the same literals, without repetition. -/
theorem C18.canonical_set (a : List Lit) :
    (∀ l, l ∈ (copyCanonical a).1 ↔ l ∈ a) ∧ (copyCanonical a).1.Nodup := by
  refine ⟨fun l => mem_canonical, ?_⟩
  have := canonical_ssorted a
  unfold SSorted at this
  exact this.imp (fun h e => by subst e; omega)

/-- **C18**: a list is recognised as tautological exactly when it contains a variable in both
polarities; such a clause is satisfied by every assignment. -/
theorem C18.tautology_iff (a : List Lit) :
    (copyCanonical a).2 = true ↔ ∃ l ∈ a, ∃ m ∈ a, l.var = m.var ∧ l.isNeg ≠ m.isNeg := by
  rw [canonical_taut]
  constructor
  · rintro ⟨l, h1, h2⟩
    exact ⟨l, h1, l.neg, h2, by simp, by simp⟩
  · rintro ⟨l, h1, m, h2, h3, h4⟩
    refine ⟨l, h1, ?_⟩
    rcases Lit.eq_or_eq_neg h3 with e | e
    · subst e; exact absurd rfl h4
    · rw [e]; simpa using h2

theorem C18.tautology_sat (a : List Lit) : (copyCanonical a).2 = true ↔ ∀ asg, clauseSat asg a := by
  rw [canonical_taut]
  constructor
  · rintro ⟨l, h1, h2⟩ asg
    rcases Lit.holds_or_neg asg l with h | h
    · exact ⟨l, h1, h⟩
    · exact ⟨l.neg, h2, h⟩
  · intro h
    obtain ⟨l, hl, hh⟩ := h (fun v => decide (Lit.mk' v false ∈ a))
    refine ⟨l, hl, ?_⟩
    have hh : decide (Lit.mk' l.var false ∈ a) = !l.isNeg := hh
    by_cases hn : l.isNeg = true
    · have e : Lit.mk' l.var false = l := by
        have := Lit.mk'_var_neg l; rw [hn] at this; exact this
      rw [e, hn] at hh
      simp [hl] at hh
    · have e : Lit.mk' l.var false = l.neg := by
        apply Lit.ext_var_neg <;> simp [hn]
      rw [e] at hh
      simp only [Bool.not_eq_true] at hn
      simpa [hn] using hh

/-- **C18**: the subset test used to justify deletions and failed cores is set inclusion (strict if
asked for) on canonical lists. -/
theorem C18.isSubset_iff (a b : List Lit) (strict : Bool) :
    isSubset (copyCanonical a).1 (copyCanonical b).1 strict = true ↔
      (∀ l ∈ a, l ∈ b) ∧ (strict = true → ∃ l ∈ b, l ∉ a) := by
  unfold isSubset
  rw [isSubsetLoop_spec (canonical_ssorted a) (canonical_ssorted b)]
  simp only [mem_canonical]
  cases strict <;> simp

/-- Tests. -/
example : copyCanonical [⟨6⟩, ⟨2⟩, ⟨6⟩, ⟨5⟩] = ([⟨2⟩, ⟨5⟩, ⟨6⟩], false) ∧
    (copyCanonical [⟨6⟩, ⟨2⟩, ⟨7⟩]).2 = true := by decide
example : clauseHash [⟨6⟩, ⟨3⟩, ⟨9⟩] = clauseHash [⟨9⟩, ⟨6⟩, ⟨3⟩] :=
  C18.hash_perm _ _ (by decide)

end Varisat
