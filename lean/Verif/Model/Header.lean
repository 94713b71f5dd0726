/-!
# Model: `varisat/src/clause/header.rs`

`LitIdx` is `u32`. Simplification: the activity is its bit pattern (`f32::to_bits`/`from_bits` are
inverse to each other).
-/
namespace Varisat

/-- `Tier`, `varisat/src/clause/db.rs:20-27`, with its discriminants. -/
inductive Tier
  | irred | core | mid | local_
deriving DecidableEq, Repr

/-- `tier as LitIdx`. -/
def Tier.toIdx : Tier → BitVec 32
  | .irred => 0
  | .core => 1
  | .mid => 2
  | .local_ => 3

/-- `Tier::from_index`, `db.rs:36-39` (a `transmute`; only called on two bits). -/
def Tier.fromIndex (i : BitVec 32) : Tier :=
  if i = 0 then .irred else if i = 1 then .core else if i = 2 then .mid else .local_

/-- `ClauseHeader`, `header.rs:36-38`. -/
structure Header where
  data : Fin 3 → BitVec 32

namespace Header

/-- `data[i] = x`. -/
def put (h : Header) (i : Fin 3) (x : BitVec 32) : Header :=
  ⟨fun j => if j = i then x else h.data j⟩

def tierWord : Fin 3 := 1        -- `header.rs:11`
def tierOffset : Nat := 0        -- `header.rs:12`
def tierMask : BitVec 32 := 0b11 -- `header.rs:13`
def deletedWord : Fin 3 := 1     -- `header.rs:15`
def deletedOffset : Nat := 2     -- `header.rs:16`
def markWord : Fin 3 := 1        -- `header.rs:18`
def markOffset : Nat := 3        -- `header.rs:19`
def glueWord : Fin 3 := 1        -- `header.rs:21`
def glueOffset : Nat := 4        -- `header.rs:22`
def glueMask : BitVec 32 := (1 <<< 6) - 1 -- `header.rs:23`
def activeWord : Fin 3 := 1      -- `header.rs:25`
def activeOffset : Nat := 10     -- `header.rs:26`
def activityWord : Fin 3 := 0    -- `header.rs:28`

/-- `bool as LitIdx`. -/
def ofBool (b : Bool) : BitVec 32 := if b then 1 else 0

/-- `len`, `header.rs:47-49`. -/
def len (h : Header) : Nat := (h.data 2).toNat
/-- `set_len`, `header.rs:54-58`. -/
def setLen (h : Header) (length : Nat) : Header := h.put 2 (BitVec.ofNat 32 length)
/-- `deleted`, `header.rs:61-63`. -/
def deleted (h : Header) : Bool := (h.data deletedWord >>> deletedOffset) &&& 1 != 0
/-- `set_deleted`, `header.rs:66-69`. -/
def setDeleted (h : Header) (deleted : Bool) : Header :=
  let word := h.data deletedWord
  h.put deletedWord ((word &&& ~~~ ((1 : BitVec 32) <<< deletedOffset)) ||| (ofBool deleted <<< deletedOffset))
/-- `tier`, `header.rs:72-74`. -/
def tier (h : Header) : Tier := Tier.fromIndex ((h.data tierWord >>> tierOffset) &&& tierMask)
/-- `set_tier`, `header.rs:77-80`. -/
def setTier (h : Header) (tier : Tier) : Header :=
  let word := h.data tierWord
  h.put tierWord ((word &&& ~~~ (tierMask <<< tierOffset)) ||| (tier.toIdx <<< tierOffset))
/-- `redundant`, `header.rs:83-85`. -/
def redundant (h : Header) : Bool := h.tier != .irred
/-- `mark`, `header.rs:91-93`. -/
def mark (h : Header) : Bool := (h.data markWord >>> markOffset) &&& 1 != 0
/-- `set_mark`, `header.rs:98-101`. -/
def setMark (h : Header) (mark : Bool) : Header :=
  let word := h.data markWord
  h.put markWord ((word &&& ~~~ ((1 : BitVec 32) <<< markOffset)) ||| (ofBool mark <<< markOffset))
/-- `active`, `header.rs:106-108`. -/
def active (h : Header) : Bool := (h.data activeWord >>> activeOffset) &&& 1 != 0
/-- `set_active`, `header.rs:111-114`. -/
def setActive (h : Header) (active : Bool) : Header :=
  let word := h.data activeWord
  h.put activeWord ((word &&& ~~~ ((1 : BitVec 32) <<< activeOffset)) ||| (ofBool active <<< activeOffset))
/-- `glue`, `header.rs:117-119`. -/
def glue (h : Header) : Nat := ((h.data glueWord >>> glueOffset) &&& glueMask).toNat
/-- `set_glue`, `header.rs:122-127`. -/
def setGlue (h : Header) (glue : Nat) : Header :=
  let glue := BitVec.ofNat 32 (min glue glueMask.toNat)
  let word := h.data glueWord
  h.put glueWord ((word &&& ~~~ (glueMask <<< glueOffset)) ||| (glue <<< glueOffset))
/-- `activity`, `header.rs:130-132`, as bits. -/
def activity (h : Header) : BitVec 32 := h.data activityWord
/-- `set_activity`, `header.rs:135-137`. -/
def setActivity (h : Header) (activity : BitVec 32) : Header := h.put activityWord activity

end Header
end Varisat
