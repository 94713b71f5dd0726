import Verif.Model.Solver.Vars
import Verif.Model.Hash
/-!
# Model: `varisat/src/analyze_conflict.rs`

Simplifications.
* The fields of `AnalyzeConflict` which are cleared at the start of each analysis are local to the
  model of `analyze_conflict`; `var_flags` and `to_clean` are kept (`to_clean` is drained at the end).
* Hashes are collected as if `clause_hashes_required`.
* The depth first search of `minimize_clause` has a bound on the number of rounds.
-/
namespace Varisat.Solver

variable {α : Type} [LinearOrder α]

/-- `Reason::lits`, `graph.rs:22-33`. -/
def Reason.lits (lits : Nat → List Lit) : Reason → List Lit
  | .unit => []
  | .binary l => [l]
  | .long c => (lits c).tail

/-- `Conflict::lits`, `graph.rs:50-59`. -/
def Conflict.lits (lits : Nat → List Lit) : Conflict → List Lit
  | .binary a b => [a, b]
  | .long c => lits c

/-- `Conflict::Long(cref)` or nothing. -/
def Conflict.cref : Conflict → List Nat
  | .binary .. => []
  | .long c => [c]

/-- `Reason::Long(cref)` or nothing. -/
def Reason.cref : Reason → List Nat
  | .long c => [c]
  | _ => []

/-- `AnalyzeConflict`, `analyze_conflict.rs:19-36`, and the decision heuristic. -/
structure An (α : Type) where
  clause : List Lit := []
  count : Nat := 0
  flags : Nat → Bool
  toClean : List Nat := []
  involved : List Nat := []
  hashes : List Nat := []
  /-- depth (`none` for `LitIdx::max_value()`) and hash -/
  unordered : List (Option Nat × Nat) := []
  vsids : Vsids α

namespace An

/-- `add_literal`, `analyze_conflict.rs:211-235`. -/
def addLiteral (e : Env α) (p : Pt) (a : An α) (lit : Lit) : An α :=
  let level := p.level lit.var
  if level > 0 ∧ a.flags lit.var = false then
    let a := { a with vsids := a.vsids.bumpVar e.ar lit.var, flags := put a.flags lit.var true }
    if level = p.curLevel then { a with count := a.count + 1 }
    else { a with clause := a.clause ++ [lit], toClean := a.toClean ++ [lit.var] }
  else a

/-- `clause.push(!lit); clause.swap(0, end)`, `analyze_conflict.rs:127-129`. -/
def pushFirst (clause : List Lit) (l : Lit) : List Lit :=
  match clause with
  | [] => [l]
  | h :: t => l :: (t ++ [h])

/-- The loop over the trail, `analyze_conflict.rs:117-154`, newest literal first; `none` is the
underflow of the counter. -/
def trailLoop (e : Env α) (p : Pt) (lits : Nat → List Lit) : List Lit → An α → Option (An α)
  | [], a => some a
  | lit :: rest, a =>
    if a.flags lit.var then
      let a := { a with flags := put a.flags lit.var false }
      if a.count = 0 then none
      else if a.count - 1 = 0 then
        some { a with count := 0, clause := pushFirst a.clause lit.neg }
      else
        let reason := p.reason lit.var
        let rl := reason.lits lits
        let a := { a with count := a.count - 1 }
        let a :=
          if reason = .unit then a
          else { a with hashes := a.hashes ++ [clauseHash rl ^^^ litHash lit] }
        let a := rl.foldl (addLiteral e p) a
        trailLoop e p lits rest { a with involved := a.involved ++ reason.cref }
    else trailLoop e p lits rest a

/-- `LevelAbstraction::add`, `analyze_conflict.rs:245-247`. -/
def levelAdd (bits : BitVec 64) (level : Nat) : BitVec 64 := bits ||| (1#64 <<< (level % 64))

/-- `LevelAbstraction::test`, `analyze_conflict.rs:250-252`. -/
def levelTest (bits : BitVec 64) (level : Nat) : Bool := bits &&& (1#64 <<< (level % 64)) != 0

/-- The loop over the literals of a reason, `analyze_conflict.rs:337-363`: flags, `to_clean` and stack,
or `none` if the search is aborted. -/
def dfsLits (p : Pt) (levels : BitVec 64) :
    List Lit → (Nat → Bool) × List Nat × List Lit → Option ((Nat → Bool) × List Nat × List Lit)
  | [], r => some r
  | l :: ls, r =>
    if r.1 l.var = false ∧ p.level l.var > 0 then
      if p.reason l.var = .unit ∨ levelTest levels (p.level l.var) = false then none
      else dfsLits p levels ls (put r.1 l.var true, r.2.1 ++ [l.var], l.neg :: r.2.2)
    else dfsLits p levels ls r

/-- The depth first search, `analyze_conflict.rs:327-364`: `some (some …)` with flags, `to_clean` and
hashes if the literal is redundant, `some none` if the search was aborted, `none` if the bound was
exhausted. The top of the stack is the head of the list. -/
def dfs (p : Pt) (lits : Nat → List Lit) (levels : BitVec 64) :
    Nat → List Lit → (Nat → Bool) → List Nat → List (Option Nat × Nat) →
      Option (Option ((Nat → Bool) × List Nat × List (Option Nat × Nat)))
  | _, [], flags, toClean, un => some (some (flags, toClean, un))
  | 0, _ :: _, _, _, _ => none
  | n + 1, lit :: stack, flags, toClean, un =>
    let reason := p.reason lit.var
    let rl := reason.lits lits
    let un :=
      if reason = .unit then un
      else un ++ [((p.node lit.var).depth, clauseHash rl ^^^ litHash lit)]
    match dfsLits p levels rl (flags, toClean, stack) with
    | none => some none
    | some r => dfs p lits levels n r.2.2 r.1 r.2.1 un

/-- The loop of `minimize_clause`, `analyze_conflict.rs:311-367`, over the literals after the first:
the literals kept. -/
def minLoop (p : Pt) (lits : Nat → List Lit) (levels : BitVec 64) (fuel : Nat) :
    List Lit → An α → Option (An α × List Lit)
  | [], a => some (a, [])
  | l :: ls, a =>
    if p.reason l.var = .unit then
      (minLoop p lits levels fuel ls a).map (fun r => (r.1, l :: r.2))
    else
      match dfs p lits levels fuel [l.neg] a.flags a.toClean a.unordered with
      | none => none
      | some none =>
        -- the flags set by this search are reset, which restores the flags before the search
        (minLoop p lits levels fuel ls a).map (fun r => (r.1, l :: r.2))
      | some (some r) =>
        minLoop p lits levels fuel ls { a with flags := r.1, toClean := r.2.1, unordered := r.2.2 }

/-- `minimize_clause`, `analyze_conflict.rs:285-368`. -/
def minimize (p : Pt) (lits : Nat → List Lit) (fuel : Nat) (a : An α) : Option (An α) :=
  match a.clause with
  | [] => some a
  | first :: rest =>
    let levels := a.clause.foldl (fun b l => levelAdd b (p.level l.var)) 0
    (minLoop p lits levels fuel rest a).map (fun r => { r.1 with clause := first :: r.2 })

/-- The key `!depth` of `sort_unstable_by_key`, `analyze_conflict.rs:169`. -/
def depthKey (d : Option Nat) : Nat := 2 ^ 32 - 1 - d.getD (2 ^ 32 - 1)

/-- `dedup_by_key`, `analyze_conflict.rs:173`. -/
def dedupDepth : List (Option Nat × Nat) → List (Option Nat × Nat)
  | [] => []
  | [x] => [x]
  | x :: y :: rest =>
    if x.1 = y.1 then dedupDepth (x :: rest) else x :: dedupDepth (y :: rest)
termination_by l => l.length

/-- `analyze_conflict.rs:161-182`. Equal depths belong to the same variable and carry equal hashes, so
the order among them chosen by the unstable sort does not matter. -/
def orderHashes (a : An α) : List Nat :=
  let un := dedupDepth (a.unordered.mergeSort (fun x y => decide (depthKey x.1 ≤ depthKey y.1)))
  (a.hashes ++ un.map (·.2)).reverse

/-- The loop `analyze_conflict.rs:195-202`: the literal to go to position 1, its level, and the other
literals. -/
def pickSecond (p : Pt) : Lit → Nat → List Lit → Lit × Nat × List Lit
  | l1, b, [] => (l1, b, [])
  | l1, b, l :: ls =>
    if p.level l.var > b then
      let r := pickSecond p l (p.level l.var) ls
      (r.1, r.2.1, l1 :: r.2.2)
    else
      let r := pickSecond p l1 b ls
      (r.1, r.2.1, l :: r.2.2)

/-- `analyze_conflict.rs:190-203`: the reordered clause and the level to backtrack to. -/
def secondLit (p : Pt) : List Lit → List Lit × Nat
  | l0 :: l1 :: rest =>
    let r := pickSecond p l1 (p.level l1.var) rest
    (l0 :: r.1 :: r.2.2, r.2.1)
  | c => (c, 0)

end An

/-- The result of `analyze_conflict`. -/
structure Learned (α : Type) where
  clause : List Lit
  backtrackTo : Nat
  involved : List Nat
  hashes : List Nat
  flags : Nat → Bool
  vsids : Vsids α

/-- `analyze_conflict`, `analyze_conflict.rs:65-208`. -/
def analyze (e : Env α) (p : Pt) (lits : Nat → List Lit) (flags : Nat → Bool) (vsids : Vsids α)
    (fuel : Nat) (conflict : Conflict) : Except Stop (Learned α) :=
  let cl := conflict.lits lits
  let a : An α := { flags := flags, vsids := vsids, hashes := [clauseHash cl] }
  if p.curLevel = 0 then
    .ok { clause := [], backtrackTo := 0, involved := [], hashes := a.hashes, flags, vsids }
  else
    let a := cl.foldl (An.addLiteral e p) a
    let a := { a with involved := a.involved ++ conflict.cref }
    match An.trailLoop e p lits p.trail.reverse a with
    | none => .error .panic
    | some a =>
      match An.minimize p lits fuel a with
      | none => .error .fuel
      | some a =>
        let r := An.secondLit p a.clause
        .ok {
          clause := r.1
          backtrackTo := r.2
          involved := a.involved
          hashes := a.orderHashes
          flags := a.toClean.foldl (fun f v => put f v false) a.flags
          vsids := a.vsids.decay e.ar }

end Varisat.Solver
