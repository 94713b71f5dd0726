import Verif.Model.Lit
/-!
# Model: `varisat-formula/src/cnf.rs`
-/
namespace Varisat

/-- `CnfFormula`, `cnf.rs:10-14`: one buffer for all literals plus a range per clause. -/
structure CnfFormula where
  varCount : Nat
  literals : List Lit
  clauseRanges : List (Nat × Nat)
deriving Repr, Inhabited

namespace CnfFormula

/-- `CnfFormula::new`, `cnf.rs:18-20`. -/
def new : CnfFormula := ⟨0, [], []⟩

/-- `set_var_count`, `cnf.rs:33-35`. -/
def setVarCount (f : CnfFormula) (count : Nat) : CnfFormula :=
  { f with varCount := max f.varCount count }

/-- `len`, `cnf.rs:38-40`. -/
def len (f : CnfFormula) : Nat := f.clauseRanges.length

/-- `is_empty`, `cnf.rs:43-45`. -/
def isEmpty (f : CnfFormula) : Bool := f.clauseRanges.isEmpty

/-- Slice `&literals[range]`. In Rust an out-of-bounds range panics; `none` models that. -/
def slice (ls : List Lit) (r : Nat × Nat) : Option (List Lit) :=
  if r.1 ≤ r.2 ∧ r.2 ≤ ls.length then some ((ls.drop r.1).take (r.2 - r.1)) else none

/-- `iter`, `cnf.rs:48-53`; `none` for a panic on any range. -/
def iter (f : CnfFormula) : Option (List (List Lit)) := f.clauseRanges.mapM (slice f.literals)

/-- The `var_count` loop of `add_clause`, `cnf.rs:174-176`. -/
def bumpVarCount (vc : Nat) (c : List Lit) : Nat := c.foldl (fun vc l => max (l.var + 1) vc) vc

/-- `add_clause`, `cnf.rs:169-179`. -/
def addClause (f : CnfFormula) (c : List Lit) : CnfFormula :=
  let begin_ := f.literals.length
  let literals := f.literals ++ c
  let end_ := literals.length
  { varCount := bumpVarCount f.varCount ((literals.drop begin_).take (end_ - begin_))
    literals := literals
    clauseRanges := f.clauseRanges ++ [(begin_, end_)] }

/-- `new_var`, `cnf.rs:181-185`. -/
def newVar (f : CnfFormula) : CnfFormula × Nat :=
  ({ f with varCount := f.varCount + 1 }, f.varCount)

/-- `From<Clauses> for CnfFormula`, `cnf.rs:57-69`. -/
def ofClauses (cs : List (List Lit)) : CnfFormula := cs.foldl addClause new

/-- `new_var_iter(count)` run to exhaustion, `cnf.rs:106-112, 150-166`. -/
def newVarIter : CnfFormula → Nat → CnfFormula × List Nat
  | f, 0 => (f, [])
  | f, n + 1 =>
    let (f, v) := f.newVar
    let (f, vs) := newVarIter f n
    (f, v :: vs)

/-- `PartialEq for CnfFormula`, `cnf.rs:78-90`; `none` for a panic while slicing. -/
def eq (f g : CnfFormula) : Option Bool :=
  if f.varCount = g.varCount ∧ f.clauseRanges.length = g.clauseRanges.length then
    go f.literals g.literals (f.clauseRanges.zip g.clauseRanges)
  else some false
where
  /-- the `all` over the zipped ranges: stops at the first difference -/
  go (a b : List Lit) : List ((Nat × Nat) × (Nat × Nat)) → Option Bool
  | [] => some true
  | (ra, rb) :: rs => do
    let x ← slice a ra
    let y ← slice b rb
    if x = y then go a b rs else some false

end CnfFormula

/-- A call on a formula that changes it. -/
inductive CnfOp where
  | addClause (c : List Lit)
  | newVar
  | setVarCount (n : Nat)

/-- One call. -/
def CnfFormula.step (f : CnfFormula) : CnfOp → CnfFormula
  | .addClause c => f.addClause c
  | .newVar => f.newVar.1
  | .setVarCount n => f.setVarCount n

end Varisat
