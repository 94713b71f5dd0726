import Verif.Model.Bytes
import Verif.Model.Lit
import Verif.Spec.Utf8
/-!
# Specification: the DIMACS CNF language

Written line by line and word by word, as in `manual/src/formats/dimacs.md`, independently of the
byte-wise state machine in the code.
-/
namespace Varisat.Spec.Dimacs

/-- Split a string at everything satisfying `p`. -/
def split {α : Type} (p : α → Bool) : List α → List (List α)
  | [] => [[]]
  | b :: bs =>
    if p b then [] :: split p bs
    else match split p bs with
      | [] => [[b]]
      | w :: ws => (b :: w) :: ws

/-- Lines end at LF or CR (so CR LF only adds an empty line). -/
def lines (bs : Bytes) : List Bytes := split (fun b => b == 10 || b == 13) bs

/-- The words of a line: maximal non-empty runs without a blank. -/
def words (line : Bytes) : List Bytes := (split (fun b => b == 32) line).filter (· ≠ [])

/-- Value of a string of decimal digits. -/
def digitsValue (ds : Bytes) : Nat := ds.foldl (fun n d => 10 * n + (d.toNat - 48)) 0

/-- The byte is a decimal digit. -/
def isDigit (b : UInt8) : Bool := 48 ≤ b.toNat ∧ b.toNat ≤ 57

/-- A non-empty string of digits with value at most 2^28. -/
def unsigned? (ds : Bytes) : Option Nat :=
  if ds ≠ [] ∧ ds.all isDigit ∧ digitsValue ds ≤ 2 ^ 28 then some (digitsValue ds) else none

/-- A number: optional minus sign, then digits. -/
def number? : Bytes → Option Int
  | 45 :: ds => (unsigned? ds).map (fun (n : Nat) => - (n : Int))
  | ds => (unsigned? ds).map (fun (n : Nat) => (n : Int))

/-- Group numbers into clauses, each ended by a 0; `none` if the last one is not ended. -/
def readClauses : (cur : List Lit) → List Int → Option (List (List Lit))
  | cur, [] => if cur = [] then some [] else none
  | cur, n :: ns =>
    if n = 0 then (readClauses [] ns).map (cur :: ·)
    else readClauses (cur ++ [Lit.fromDimacs n]) ns

/-- A number in the header, given by its characters: optional plus sign, digits, fits in 64 bits. -/
def headerNumber? (w : List Nat) : Option Nat :=
  let ds := if w.head? = some 43 then w.tail else w
  let value := ds.foldl (fun n d => 10 * n + (d - 48)) 0
  if ds ≠ [] ∧ (∀ d ∈ ds, 48 ≤ d ∧ d ≤ 57) ∧ value < 2 ^ 64 then some value else none

/-- A header line `p cnf <variables> <clauses>`: the line is UTF-8, with white space between the words. -/
def header? (line : Bytes) : Option (Nat × Nat) :=
  let cs := Utf8.decode line
  if cs.take 2 = "p ".toList.map Char.toNat then
    match (split Utf8.white (cs.drop 2)).filter (· ≠ []) with
    | [cnf, v, c] =>
      if cnf = "cnf".toList.map Char.toNat then
        match headerNumber? v, headerNumber? c with
        | some v, some c => if v ≤ 2 ^ 28 then some (v, c) else none
        | _, _ => none
      else none
    | _ => none
  else none

/-- What a DIMACS file says. -/
structure Doc where
  clauses : List (List Lit)
  header : Option (Nat × Nat)

/-- The meaning of a byte string as a DIMACS file, `none` if it is not one. Lines starting with `c`
are comments, a line starting with `p` is the header (at most one), all other lines are data. -/
def doc? (bs : Bytes) : Option Doc := do
  let data := (lines bs).filter (fun l => l.head? ≠ some 99 ∧ l.head? ≠ some 112)
  let numbers ← (data.flatMap words).mapM number?
  let clauses ← readClauses [] numbers
  match (lines bs).filter (fun l => l.head? = some 112) with
  | [] => return ⟨clauses, none⟩
  | [h] =>
    let (v, c) ← header? h
    if clauses.length = c ∧ ∀ cl ∈ clauses, ∀ l ∈ cl, l.var < v then
      return ⟨clauses, some (v, c)⟩
    else none
  | _ => none

/-- The line has a last word that is a lone minus sign and is not followed by a blank. -/
def dangles (line : Bytes) : Bool := (split (fun b => b == 32) line).getLast? = some [45]

/-- The line without the lone minus sign at its end, if it has one. -/
def trim (line : Bytes) : Bytes := if dangles line then line.dropLast else line

/-- The input without the lone minus sign at its very end, if it has one, other than in a comment or a header line. -/
def trimDoc (bs : Bytes) : Bytes :=
  match (lines bs).getLast? with
  | some l => if l.head? ≠ some 99 ∧ l.head? ≠ some 112 ∧ dangles l then bs.dropLast else bs
  | none => bs

end Varisat.Spec.Dimacs
