import Verif.Model.Lit
/-!
# Model: clause hashes (`varisat-internal-proof/src/lib.rs`) and sorted literal lists
(`varisat-checker/src/sorted_lits.rs`)
-/
namespace Varisat

/-- `lit_code_hash`, `varisat-internal-proof/src/lib.rs:21-24`: `!code` times a constant, wrapping. -/
def litCodeHash (code : Nat) : Nat := ((2 ^ 64 - 1 - code % 2 ^ 64) * 0x61c8864680b583eb) % 2 ^ 64

/-- `lit_hash`, `varisat-internal-proof/src/lib.rs:14-16`. -/
def litHash (l : Lit) : Nat := litCodeHash l.code

/-- `clause_hash`, `varisat-internal-proof/src/lib.rs:30-36`. -/
def clauseHash (ls : List Lit) : Nat := ls.foldl (fun h l => h ^^^ litHash l) 0

/-- Sorted insertion; `Ord for Lit` compares codes (derived, `lit.rs:125`). -/
def insertLit (l : Lit) : List Lit → List Lit
  | [] => [l]
  | m :: ms => if l.code ≤ m.code then l :: m :: ms else m :: insertLit l ms

/-- `target.sort()`. Simplification: insertion sort; for a total order on codes every sorting
algorithm gives the same list. -/
def sortLits : List Lit → List Lit
  | [] => []
  | l :: ls => insertLit l (sortLits ls)

/-- `Vec::dedup`: drop elements equal to their predecessor. -/
def dedupLits : List Lit → List Lit
  | [] => []
  | [l] => [l]
  | l :: m :: ms => if l = m then dedupLits (m :: ms) else l :: dedupLits (m :: ms)

/-- The tautology scan of `copy_canonical`, `sorted_lits.rs:15-21`. -/
def tautScan : Option Lit → List Lit → Bool
  | _, [] => false
  | last, l :: ls => if last = some l.neg then true else tautScan (some l) ls

/-- `copy_canonical`, `sorted_lits.rs:9-22`: the new contents of `target`, and whether the clause is a
tautology. -/
def copyCanonical (src : List Lit) : List Lit × Bool :=
  let target := dedupLits (sortLits src)
  (target, tautScan none target)

/-- The loop of `is_subset`, `sorted_lits.rs:31-55`; `isStrict` is the local variable. -/
def isSubsetLoop : List Lit → List Lit → Bool → Bool
  | [], sup, isStrict => isStrict || !sup.isEmpty
  | _ :: _, [], _ => false
  | a :: sub, b :: sup, isStrict =>
    if a.code < b.code then false
    else if b.code < a.code then isSubsetLoop (a :: sub) sup true
    else isSubsetLoop sub sup isStrict

/-- `is_subset`, `sorted_lits.rs:27-56`. -/
def isSubset (sub sup : List Lit) (strict : Bool) : Bool := isSubsetLoop sub sup (!strict)

end Varisat
