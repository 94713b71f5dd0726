import Verif.Model.Solver.Trail
/-!
# Model: `varisat/src/prop.rs`, `varisat/src/prop/{binary,long}.rs` (unit propagation)

Simplifications.
* The clause store is a map from references to literal lists. The raw pointer accesses of
  `propagate_long` become list operations; a clause with fewer than two literals is a panic (the code
  checks that three words can be read).
* The watch list of the propagated literal is written back at the end of the loop (in the code it is
  compacted in place; the `assert_ne!` ensures that nothing is added to it meanwhile).
* The `while` loop of `propagate` has a bound on the number of rounds.
-/
namespace Varisat.Solver

/-- `Watch`, `watch.rs:46-51`. -/
structure Watch where
  cref : Nat
  blocking : Lit
deriving DecidableEq, Repr

/-- `propagate_binary`, `prop/binary.rs:25-35`, on the list of implied literals. -/
def propBinary (lit : Lit) : List Lit → Pt → Pt × Option Conflict
  | [], p => (p, none)
  | implied :: rest, p =>
    if p.isFalse implied then (p, some (.binary implied lit.neg))
    else if p.isTrue implied then propBinary lit rest p
    else propBinary lit rest (p.enqueue implied (.binary lit.neg))

/-- The part of the state used by the propagation of long clauses: assignment, watch lists and the
literals of the stored clauses. -/
structure Ps where
  p : Pt
  watches : Lit → List Watch
  lits : Nat → List Lit

/-- `add_watch`, `watch.rs:99-101`. -/
def addWatch (w : Lit → List Watch) (lit : Lit) (x : Watch) : Lit → List Watch :=
  put w lit (w lit ++ [x])

/-- The search for a non-false unwatched literal, `long.rs:117-132`: the literal found and the
unwatched literals with `false_lit` in its place. -/
def findRest (p : Pt) (falseLit : Lit) : List Lit → Option (Lit × List Lit)
  | [] => none
  | l :: ls =>
    if p.isFalse l then (findRest p falseLit ls).map (fun r => (r.1, l :: r.2))
    else some (l, falseLit :: ls)

/-- What the loop of `propagate_long` does with a watch. -/
inductive Kept
  /-- kept, possibly changed -/
  | keep (x : Watch)
  /-- moved to another list -/
  | moved
  /-- kept, and its clause is in conflict -/
  | conflict (x : Watch)
deriving DecidableEq, Repr

/-- One round of the loop of `propagate_long`, `long.rs:59-157`; `none` is a panic. -/
def longStep (lit : Lit) (x : Watch) (s : Ps) : Option (Ps × Kept) :=
  if s.p.isTrue x.blocking then some (s, .keep x)
  else
    match s.lits x.cref with
    | c0 :: c1 :: rest =>
      let first := if c0 = lit.neg then c1 else c0
      let second := if c0 = lit.neg then lit.neg else c1
      let s := { s with lits := put s.lits x.cref (first :: second :: rest) }
      let new : Watch := ⟨x.cref, first⟩
      if first ≠ x.blocking ∧ s.p.isTrue first = true then some (s, .keep new)
      else
        match findRest s.p lit.neg rest with
        | some (restLit, rest) =>
          if restLit.neg = lit then none
          else some ({ s with
            lits := put s.lits x.cref (first :: restLit :: rest)
            watches := addWatch s.watches restLit.neg new }, .moved)
        | none =>
          if s.p.isFalse first then some (s, .conflict new)
          else some ({ s with p := s.p.enqueue first (.long x.cref) }, .keep new)
    | _ => none

/-- The loop of `propagate_long`, `long.rs:59-161`, over the watches not yet seen; `kept` are those
written back so far. -/
def longLoop (lit : Lit) : List Watch → List Watch → Ps → Option (Ps × Option Conflict)
  | [], kept, s => some ({ s with watches := put s.watches lit kept }, none)
  | x :: rest, kept, s =>
    match longStep lit x s with
    | none => none
    | some (s, .keep x) => longLoop lit rest (kept ++ [x]) s
    | some (s, .moved) => longLoop lit rest kept s
    | some (s, .conflict x) =>
      some ({ s with watches := put s.watches lit (kept ++ [x] ++ rest) }, some (.long x.cref))

/-- `propagate_long`, `long.rs:15-164`. -/
def propLong (lit : Lit) (s : Ps) : Option (Ps × Option Conflict) :=
  longLoop lit (s.watches lit) [] s

/-- The loop of `propagate`, `prop.rs:37-41`. -/
def propLoop (bin : Lit → List Lit) : Nat → Ps → Except Stop (Ps × Option Conflict)
  | 0, _ => .error .fuel
  | n + 1, s =>
    match s.p.trail[s.p.qhead]? with
    | none => .ok (s, none)
    | some lit =>
      let r := propBinary lit (bin lit) { s.p with qhead := s.p.qhead + 1 }
      let s := { s with p := r.1 }
      match r.2 with
      | some c => .ok (s, some c)
      | none =>
        match propLong lit s with
        | none => .error .panic
        | some (s, some c) => .ok (s, some c)
        | some (s, none) => propLoop bin n s

end Varisat.Solver
