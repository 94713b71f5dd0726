import Verif.Model.Alloc
/-!
# Specification: a store of clauses

What a user of the clause buffer expects of it: a map from references to clauses. `Uses b m` says that the
buffer `b` is the result of some sequence of operations on an empty buffer, and that the map `m` is the
result of the same operations on an empty map. A clause that is only marked as deleted stays in the map.
-/
namespace Varisat

/-- Metadata and literals. -/
abbrev Store := Nat → Option (Header × List Word)

/-- One entry replaced. -/
def Store.set (m : Store) (c : Nat) (x : Header × List Word) : Store := fun d => if d = c then some x else m d

/-- Sequences of operations on the buffer, and their meaning for the map. -/
inductive Uses : Buf → Store → Prop
  | empty : Uses {} (fun _ => none)
  /-- a new clause -/
  | add {b b' m c header lits} : Uses b m → lits.length < 2 ^ 32 → b.addClause header lits = some (b', c) →
      Uses b' (m.set c (header.setLen lits.length, lits))
  /-- a change of metadata, for example deletion -/
  | header {b b' m c h lits} (f : Header → Header) : Uses b m → m c = some (h, lits) → (f h).len = h.len →
      b.headerMut c f = some b' → Uses b' (m.set c (f h, lits))
  /-- the first literals are overwritten, for example when literals are moved to the front -/
  | write {b b' m c h lits new} : Uses b m → m c = some (h, lits) → new.length ≤ lits.length →
      b.writeLits c new = some b' → Uses b' (m.set c (h, new ++ lits.drop new.length))
  /-- the last literals are dropped -/
  | shrink {b b' m c h lits} (n : Nat) : Uses b m → m c = some (h, lits) → n ≤ lits.length →
      b.headerMut c (·.setLen n) = some b' → Uses b' (m.set c (h.setLen n, lits.take n))

end Varisat
