import Verif.Model.ProofFormat
/-!
# Specification: proof files with shortened hashes

Independent of how the solver writes proofs and of how the checker reads them: what it means that a
sequence of written steps is a given sequence of steps with full 64 bit hashes, where every hash is cut
to the number of bits the reader has been told by then.
-/
namespace Varisat

/-- `h` cut to its `bits` most significant bits (of 64). -/
def cutHash (bits h : Nat) : Nat := h / 2 ^ (64 - bits)

/-- The step with every hash cut. -/
def ProofStep.cut (bits : Nat) : ProofStep → ProofStep
  | .atClause r c h => .atClause r c (h.map (cutHash bits))
  | .unitClauses us => .unitClauses (us.map fun u => (u.1, cutHash bits u.2))
  | .failedAssumptions c h => .failedAssumptions c (h.map (cutHash bits))
  | st => st

/-- `InStep bits given written`: a reader that starts with `bits` bits and follows the announcements in
`written` finds the given steps, cut to the number of bits announced last. -/
def InStep : Nat → List ProofStep → List ProofStep → Prop
  | _, given, .changeHashBits b :: written => InStep b given written
  | bits, st :: given, w :: written => w = st.cut bits ∧ InStep bits given written
  | _, [], [] => True
  | _, _, _ => False

/-- The number of bits a reader of `written` has been told, starting with `bits`. -/
def told (bits : Nat) : List ProofStep → Nat
  | [] => bits
  | .changeHashBits b :: written => told b written
  | _ :: written => told bits written

/-- How many clauses of two or more literals the steps add, less those they delete. -/
def netClauses : List ProofStep → Int
  | [] => 0
  | .addClause c :: g | .atClause _ c _ :: g => (if c.length > 1 then 1 else 0) + netClauses g
  | .deleteClause c _ :: g => (if c.length > 1 then -1 else 0) + netClauses g
  | _ :: g => netClauses g

end Varisat
