import Verif.Model.Header
/-!
# Model: `varisat/src/clause/alloc.rs` and the copying of `varisat/src/clause/gc.rs`

The buffer is the list of its words. `LitIdx` is `u32`, and a literal is represented by its code, so a
literal is a word here. Simplifications: a failing `assert!` is `none`; unchecked accesses through raw
pointers are the same as the checked ones (their bounds are checked before, `check_bounds`); `usize` has
64 bits; capacities are not modelled.
-/
namespace Varisat

/-- `LitIdx`. -/
abbrev Word := BitVec 32

/-- The words of a header, `header.rs:36-38` (`repr(transparent)`). -/
def Header.words (h : Header) : List Word := [h.data 0, h.data 1, h.data 2]

/-- The header made of three words (the pointer casts of `alloc.rs:98-109`). -/
def Header.ofWords (ws : List Word) : Header :=
  ⟨fun i => if i = 0 then ws.getD 0 0 else if i = 1 then ws.getD 1 0 else ws.getD 2 0⟩

/-- `ClauseAlloc`, `alloc.rs:22-24`. -/
structure Buf where
  words : List Word := []

namespace Buf

/-- `HEADER_LEN`, `header.rs:9`. -/
def headerLen : Nat := 3

/-- `max_offset`, `alloc.rs:189-192`. -/
def maxOffset : Nat := 2 ^ 32 - 1

/-- The words from `i` on, `n` of them. -/
def slice (ws : List Word) (i n : Nat) : List Word := (ws.drop i).take n

/-- The words with those from `i` on replaced. -/
def splice (ws : List Word) (i : Nat) (xs : List Word) : List Word :=
  ws.take i ++ xs ++ ws.drop (i + xs.length)

/-- `add_clause`, `alloc.rs:48-78`; the reference is truncated to 32 bits. -/
def addClause (b : Buf) (header : Header) (lits : List Word) : Option (Buf × Nat) :=
  let offset := b.words.length
  if lits.length < 3 then none
  else if offset > maxOffset then none
  else
    let header := header.setLen lits.length
    some (⟨b.words ++ header.words ++ lits⟩, offset % 2 ^ 32)

/-- `header`, `alloc.rs:81-88`. -/
def header (b : Buf) (cref : Nat) : Option Header :=
  if cref + headerLen ≤ b.words.length then some (Header.ofWords (slice b.words cref headerLen)) else none

/-- A change of `header_mut`, `alloc.rs:91-98`. -/
def headerMut (b : Buf) (cref : Nat) (f : Header → Header) : Option Buf :=
  (b.header cref).map (fun h => ⟨splice b.words cref (f h).words⟩)

/-- `clause`, `alloc.rs:114-126`: header and literals. -/
def clause (b : Buf) (cref : Nat) : Option (Header × List Word) :=
  match b.header cref with
  | none => none
  | some h =>
    if cref + headerLen + h.len ≤ b.words.length then
      some (h, slice b.words (cref + headerLen) h.len)
    else none

/-- Overwriting the first literals through `clause_mut(cref).lits_mut()[..n]`, `alloc.rs:129-141`,
`clause.rs:61-66`; too many literals are out of bounds. -/
def writeLits (b : Buf) (cref : Nat) (lits : List Word) : Option Buf :=
  match b.clause cref with
  | none => none
  | some (h, _) =>
    if lits.length ≤ h.len then some ⟨splice b.words (cref + headerLen) lits⟩ else none

/-- `buffer_size`, `alloc.rs:174-176`. -/
def bufferSize (b : Buf) : Nat := b.words.length

/-- The loop of `collect_garbage_now`, `gc.rs:68-90`, as far as it concerns the buffers: the new buffer
and the pairs of old and new references, in order. -/
def copyLoop (old : Buf) : List Nat → Buf → Option (Buf × List (Nat × Nat))
  | [], new => some (new, [])
  | cref :: rest, new =>
    match old.clause cref with
    | none => none
    | some (header, lits) =>
      if header.deleted then copyLoop old rest new
      else
        match new.addClause (header.setMark false) lits with
        | none => none
        | some (new, newRef) => (copyLoop old rest new).map (fun r => (r.1, (cref, newRef) :: r.2))

end Buf
end Varisat
