import Verif.Spec.Dimacs
/-!
# Specification: readers for the LRAT, compact LRAT, DRAT and binary DRAT formats

Written after the published descriptions of the formats, without reference to the writers.
Textual files are lines of space separated numbers.  In the binary files every number is in LEB128
(seven bits per byte, low groups first, high bit set on all bytes but the last); the tags `a` and
`d` are single bytes below 128 and therefore read as the numbers 97 and 100, and all lists end
with the number 0.  Clause ids are reported 0-based (a file counts from 1), literals as signed
DIMACS numbers.
-/
namespace Varisat.Spec.Lrat
open Spec.Dimacs (isDigit digitsValue)

/-- A line of a proof file.  `stamp` is the number a textual deletion line starts with. -/
inductive Line
  | add (id : Nat) (lits : List Int) (hints : List Nat)
  | del (stamp : Option Nat) (ids : List Nat)
deriving DecidableEq, Repr

/-- What a proof file does to the set of clauses. -/
inductive Event
  | add (id : Nat) (lits : List Int) (hints : List Nat)
  | del (id : Nat)
deriving DecidableEq, Repr

def Line.events : Line → List Event
  | .add id lits hints => [.add id lits hints]
  | .del _ ids => ids.map .del

/-- Split at every occurrence of a separator. -/
def split {α : Type} [DecidableEq α] (sep : α) : List α → List (List α)
  | [] => [[]]
  | b :: r =>
      if b = sep then [] :: split sep r
      else match split sep r with
        | [] => [[b]]
        | w :: ws => (b :: w) :: ws

/-- A word as a natural number. -/
def nat? (w : Bytes) : Option Nat :=
  if w ≠ [] ∧ w.all isDigit then some (digitsValue w) else none

/-- A word as a signed number. -/
def int? (w : Bytes) : Option Int :=
  if w.head? = some 45 then (nat? w.tail).map (fun (n : Nat) => - (n : Int))
  else (nat? w).map (fun (n : Nat) => (n : Int))

/-- A clause id as written in textual files: 1-based. -/
def id? (w : Bytes) : Option Nat :=
  match nat? w with
  | some (n + 1) => some n
  | _ => none

/-- Words up to the first `0`, and the words after it. -/
def untilZero : List Bytes → Option (List Bytes × List Bytes)
  | [] => none
  | w :: ws =>
      if w = [48] then some ([], ws) else (untilZero ws).map (fun r => (w :: r.1, r.2))

/-- One line of a textual LRAT file: `<id> <lits> 0 <hints> 0` or `<id> d <ids> 0`. -/
def textLine (line : Bytes) : Option Line :=
  match split 32 line with
  | [] => none
  | n :: ws =>
      if ws.head? = some [100] then do
        let stamp ← id? n
        let (ids, rest) ← untilZero ws.tail
        if rest ≠ [] then none
        return .del (some stamp) (← ids.mapM id?)
      else do
        let id ← id? n
        let (lits, ws) ← untilZero ws
        let (hints, rest) ← untilZero ws
        if rest ≠ [] then none
        return .add id (← lits.mapM int?) (← hints.mapM id?)

/-- All lines but the last, which must be empty (the file ends with a line feed). -/
def fileLines (bytes : Bytes) : Option (List Bytes) :=
  if (split 10 bytes).getLast? = some [] then some (split 10 bytes).dropLast else none

/-- A textual LRAT file. -/
def readText (bytes : Bytes) : Option (List Line) := do (← fileLines bytes).mapM textLine

/-- The numbers of a binary file. -/
def lebs : Bytes → Option (List Nat)
  | [] => some []
  | b :: r =>
      if b.toNat < 128 then (lebs r).map (b.toNat :: ·)
      else match lebs r with
        | some (n :: ns) => some ((b.toNat - 128 + 128 * n) :: ns)
        | _ => none

/-- A clause id in a compact LRAT file: twice the 1-based id. -/
def binId? (n : Nat) : Option Nat := if n % 2 = 0 ∧ 2 ≤ n then some (n / 2 - 1) else none

/-- A literal in a binary file: twice the DIMACS variable, plus one if negative. -/
def binLit? (n : Nat) : Option Int :=
  if n < 2 then none else some (if n % 2 = 0 then ((n / 2 : Nat) : Int) else - ((n / 2 : Nat) : Int))

/-- The lines of a compact LRAT file, from the zero terminated lists in it: `a <id> <lits> 0
<hints> 0` and `d <ids> 0`. -/
def binLines : List (List Nat) → Option (List Line)
  | [[]] => some []
  | (97 :: n :: lits) :: hints :: rest => do
      let id ← binId? n
      let lits ← lits.mapM binLit?
      let hints ← hints.mapM binId?
      return .add id lits hints :: (← binLines rest)
  | (100 :: ids) :: rest => do
      let ids ← ids.mapM binId?
      return .del none ids :: (← binLines rest)
  | _ => none

/-- A compact LRAT file. -/
def readBinary (bytes : Bytes) : Option (List Line) := do binLines (split 0 (← lebs bytes))

/-- One line of a textual DRAT file: `<lits> 0` or `d <lits> 0`; `true` for an addition. -/
def dratLine (line : Bytes) : Option (Bool × List Int) :=
  let ws := split 32 line
  let add := ws.head? ≠ some [100]
  do
    let (lits, rest) ← untilZero (if add then ws else ws.tail)
    if rest ≠ [] then none
    return (add, ← lits.mapM int?)

/-- A textual DRAT file. -/
def readDrat (bytes : Bytes) : Option (List (Bool × List Int)) := do
  (← fileLines bytes).mapM dratLine

/-- The lines of a binary DRAT file: `a <lits> 0` and `d <lits> 0`. -/
def dratLines : List (List Nat) → Option (List (Bool × List Int))
  | [[]] => some []
  | (97 :: lits) :: rest => do
      let lits ← lits.mapM binLit?
      return (true, lits) :: (← dratLines rest)
  | (100 :: lits) :: rest => do
      let lits ← lits.mapM binLit?
      return (false, lits) :: (← dratLines rest)
  | _ => none

/-- A binary DRAT file. -/
def readBinaryDrat (bytes : Bytes) : Option (List (Bool × List Int)) := do
  dratLines (split 0 (← lebs bytes))

end Varisat.Spec.Lrat
