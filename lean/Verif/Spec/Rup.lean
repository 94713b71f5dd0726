import Verif.Spec.Sat
/-! Reverse unit propagation, as in the LRAT format. -/
namespace Varisat

/-- `cls` is a unit propagation refutation: with the literals `known` true, each listed clause in turn
has exactly one literal not yet false, which is unassigned and becomes true; the last one is false. -/
def RupChain (neg : Lit → Lit) : List Lit → List (List Lit) → Prop
  | _, [] => False
  | known, [c] => ∀ l ∈ c, neg l ∈ known
  | known, c :: d :: cs => ∃ l ∈ c, l ∉ known ∧ neg l ∉ known ∧ (∀ m ∈ c, m ≠ l → neg m ∈ known) ∧
      RupChain neg (l :: known) (d :: cs)

/-- Well-ordered hints: with the literals `known` true, all literals of each listed clause but one are
false, which makes the remaining one true (it may have been already); the last clause is false. -/
def UnitChain (neg : Lit → Lit) : (Lit → Prop) → List (List Lit) → Prop
  | _, [] => False
  | known, [c] => ∀ l ∈ c, known (neg l)
  | known, c :: d :: cs => ∃ l ∈ c, (∀ m ∈ c, m = l ∨ known (neg m)) ∧
      UnitChain neg (fun x => x = l ∨ known x) (d :: cs)

end Varisat
