import Verif.Model.Alloc
import Verif.Model.Solver.Prop
/-!
# Model: `varisat/src/prop/long.rs` with its raw pointers

`Model/Solver/Prop` describes what `propagate_long` computes. Here is how: clauses are words of the buffer of
`ClauseAlloc`, the list of watches is compacted in place, and both are accessed through raw pointers. A pointer is an index
into its array. An access outside of the array, and a pointer beyond its end, is the error `ub`; failed checks of the code
are `panic`.

Simplifications.
* The assignment and the implication graph have one length (`vars`), as both are set by `set_var_count`; their contents are
  as in `Model/Solver/Trail`.
* A pointer into the list of watches is valid as long as nothing is added to this list: `add_watch` is called for other
  literals only (`assert_ne!`, `long.rs:127`). Aliasing rules of references are not modelled.
* `usize` has 64 bits, additions to an offset do not overflow.
-/
namespace Varisat.Solver.Raw

/-- How the code stops without a result. -/
inductive Fault
  /-- a failed check -/
  | panic
  /-- an access outside of an array, or a pointer outside of it -/
  | ub
  /-- the bound on the number of rounds is reached; there is no such bound in the code -/
  | fuel
deriving DecidableEq, Repr

/-- The memory `propagate_long` uses. -/
structure Mem where
  /-- `ClauseAlloc::buffer`, `alloc.rs:22-24` -/
  words : List Word
  /-- `Assignment`, `Trail` and `ImplGraph` -/
  p : Pt
  /-- the length of `assignment` and of `nodes` -/
  vars : Nat
  /-- `Watchlists::watches`, `watch.rs:54-60`, by code -/
  watches : List (List Watch)

/-- A word as a literal (`Lit` is `repr(transparent)`). -/
def toLit (w : Word) : Lit := ⟨w.toNat⟩

/-- A literal as a word. -/
def ofLit (l : Lit) : Word := BitVec.ofNat 32 l.code

namespace Mem

/-- `*ptr` for a literal. -/
def read (m : Mem) (i : Nat) : Except Fault Lit :=
  match m.words[i]? with
  | some w => .ok (toLit w)
  | none => .error .ub

/-- `*ptr = lit`. -/
def write (m : Mem) (i : Nat) (l : Lit) : Except Fault Mem :=
  if i < m.words.length then .ok { m with words := m.words.set i (ofLit l) } else .error .ub

/-- `ptr.add(..)`: the pointer stays within the array or points to its end. -/
def pointer (m : Mem) (i : Nat) : Except Fault Nat :=
  if i ≤ m.words.length then .ok i else .error .ub

/-- `check_bounds`, `alloc.rs:146-153`. -/
def checkBounds (m : Mem) (cref len : Nat) : Except Fault Unit :=
  if cref + Buf.headerLen + len ≤ m.words.length then .ok () else .error .panic

/-- `header_unchecked_mut(cref)`, `alloc.rs:105-109`, copied, and its `len`. -/
def headerLen (m : Mem) (cref : Nat) : Except Fault Nat :=
  if cref + Buf.headerLen ≤ m.words.length then
    .ok (Header.ofWords (Buf.slice m.words cref Buf.headerLen)).len
  else .error .ub

/-- `is_true`, `long.rs:49-52`. -/
def isTrue (m : Mem) (l : Lit) : Except Fault Bool :=
  if l.var < m.vars then .ok (m.p.isTrue l) else .error .panic

/-- `is_false`, `long.rs:54-57`. -/
def isFalse (m : Mem) (l : Lit) : Except Fault Bool :=
  if l.var < m.vars then .ok (m.p.isFalse l) else .error .panic

/-- `*watch_ptr`. -/
def readWatch (m : Mem) (lit : Lit) (i : Nat) : Except Fault Watch :=
  match (m.watches.getD lit.code [])[i]? with
  | some x => .ok x
  | none => .error .ub

/-- `*watch_write = watch`. -/
def writeWatch (m : Mem) (lit : Lit) (i : Nat) (x : Watch) : Except Fault Mem :=
  if i < (m.watches.getD lit.code []).length then
    .ok { m with watches := m.watches.modify lit.code (·.set i x) }
  else .error .ub

/-- `add_watch`, `watch.rs:99-101`. -/
def addWatch (m : Mem) (lit : Lit) (x : Watch) : Except Fault Mem :=
  if lit.code < m.watches.length then .ok { m with watches := m.watches.modify lit.code (· ++ [x]) }
  else .error .panic

/-- `watched_by_mut(lit).truncate(n)`, `long.rs:150`, `161`. -/
def truncate (m : Mem) (lit : Lit) (n : Nat) : Except Fault Mem :=
  if lit.code < m.watches.length then .ok { m with watches := m.watches.modify lit.code (·.take n) }
  else .error .panic

/-- `enqueue_assignment`, `assignment.rs:161-179`, with index checks. -/
def enqueue (m : Mem) (l : Lit) (r : Reason) : Except Fault Mem :=
  if l.var < m.vars then .ok { m with p := m.p.enqueue l r } else .error .panic

/-- `long.rs:83-89`: the literal that is propagated is moved to index 1. -/
def front (m : Mem) (c : Nat) (falseLit : Lit) : Except Fault (Mem × Lit) := do
  let first ← m.read c
  if first = falseLit then
    let c1 ← m.read (c + 1)
    let m ← m.write c c1
    let m ← m.write (c + 1) falseLit
    pure (m, c1)
  else pure (m, first)

/-- The search for a non-false unwatched literal, `long.rs:117-132`: its index and the literal. -/
def search (m : Mem) (i stop : Nat) : Except Fault (Option (Nat × Lit)) :=
  if i = stop then .ok none
  else
    match hw : m.words[i]? with
    | none => .error .ub
    | some w =>
      match m.isFalse (toLit w) with
      | .error e => .error e
      | .ok false => .ok (some (i, toLit w))
      | .ok true => search m (i + 1) stop
termination_by m.words.length - i
decreasing_by
  have := (List.getElem?_eq_some_iff.1 hw).1
  omega

/-- A round of the loop after the clause was found not to be satisfied by its first literal, `long.rs:108-156`: the new
write index, and the clause if it is in conflict. `ptr` makes a pointer. -/
def replaceWith (m : Mem) (ptr : Nat → Except Fault Nat) (lit : Lit) (new : Watch) (n wr : Nat) : Except Fault (Mem × Nat × Option Nat) := do
  let c := new.cref + Buf.headerLen
  let start ← ptr (c + 2)
  let stop ← ptr (c + n)
  m.checkBounds new.cref n
  match ← m.search start stop with
  | some (i, l) =>
    let m ← m.write (c + 1) l
    let m ← m.write i lit.neg
    if l.neg = lit then .error .panic
    else
      let m ← m.addWatch l.neg new
      pure (m, wr, none)
  | none =>
    let m ← m.writeWatch lit wr new
    if ← m.isFalse new.blocking then pure (m, wr + 1, some new.cref)
    else
      let m ← m.enqueue new.blocking (.long new.cref)
      pure (m, wr + 1, none)

/-- The same, where pointers outside of the buffer are errors. -/
def replace (m : Mem) (lit : Lit) (new : Watch) (n wr : Nat) : Except Fault (Mem × Nat × Option Nat) := m.replaceWith m.pointer lit new n wr

/-- The same, where such pointers are only errors when they are used: what the checks of the code guard. -/
def replaceUse (m : Mem) (lit : Lit) (new : Watch) (n wr : Nat) : Except Fault (Mem × Nat × Option Nat) := m.replaceWith .ok lit new n wr

/-- A round of the loop, `long.rs:59-157`, reading at `rd` and writing at `wr`. -/
def step (m : Mem) (lit : Lit) (rd wr : Nat) : Except Fault (Mem × Nat × Option Nat) := do
  let x ← m.readWatch lit rd
  if ← m.isTrue x.blocking then
    let m ← m.writeWatch lit wr x
    pure (m, wr + 1, none)
  else
    m.checkBounds x.cref 3
    let c ← m.pointer (x.cref + Buf.headerLen)
    let n ← m.headerLen x.cref
    let (m, first) ← m.front c lit.neg
    let sat ← if first = x.blocking then pure false else m.isTrue first
    if sat then
      let m ← m.writeWatch lit wr ⟨x.cref, first⟩
      pure (m, wr + 1, none)
    else m.replace lit ⟨x.cref, first⟩ n wr

/-- The remaining watches are moved after a conflict, `long.rs:143-147`; the first argument is the distance to the end. -/
def move (lit : Lit) : Nat → Nat → Nat → Mem → Except Fault (Mem × Nat)
  | 0, _, wr, m => .ok (m, wr)
  | k + 1, rd, wr, m => do
    let x ← m.readWatch lit rd
    let m ← m.writeWatch lit wr x
    move lit k (rd + 1) (wr + 1) m

/-- The loop of `propagate_long`, `long.rs:59-162`; the first argument is the distance to the end. -/
def loop (lit : Lit) : Nat → Nat → Nat → Mem → Except Fault (Mem × Option Conflict)
  | 0, _, wr, m => do
    let m ← m.truncate lit wr
    pure (m, none)
  | k + 1, rd, wr, m => do
    let (m, wr, o) ← m.step lit rd wr
    match o with
    | none => loop lit k (rd + 1) wr m
    | some cref =>
      let (m, wr) ← move lit k (rd + 1) wr m
      let m ← m.truncate lit wr
      pure (m, some (.long cref))

/-- `propagate_long`, `long.rs:15-164`. -/
def propLong (m : Mem) (lit : Lit) : Except Fault (Mem × Option Conflict) :=
  match m.watches[lit.code]? with
  | none => .error .panic
  | some ws => loop lit ws.length 0 0 m

/-- The loop of `propagate_binary`, `prop/binary.rs:25-35`, with index checks. -/
def binLoop (lit : Lit) : List Lit → Mem → Except Fault (Mem × Option Conflict)
  | [], m => .ok (m, none)
  | implied :: rest, m => do
    if ← m.isFalse implied then pure (m, some (.binary implied lit.neg))
    else if ← m.isTrue implied then binLoop lit rest m
    else
      let m ← m.enqueue implied (.binary lit.neg)
      binLoop lit rest m

/-- The loop of `propagate`, `prop.rs:37-41`; `bins` is `BinaryClauses::by_lit` (`binary.rs:9-14`), by code. -/
def propLoop (bins : List (List Lit)) : Nat → Mem → Except Fault (Mem × Option Conflict)
  | 0, _ => .error .fuel
  | n + 1, m =>
    match m.p.trail[m.p.qhead]? with
    | none => .ok (m, none)
    | some lit =>
      match bins[lit.code]? with
      | none => .error .panic
      | some implied => do
        let (m, o) ← binLoop lit implied { m with p := { m.p with qhead := m.p.qhead + 1 } }
        match o with
        | some c => pure (m, some c)
        | none =>
          let (m, o) ← m.propLong lit
          match o with
          | some c => pure (m, some c)
          | none => propLoop bins n m

end Mem
end Varisat.Solver.Raw
