import Verif.Model.Solver.Prop
import Verif.Model.Header
import Verif.Model.Vsids
/-!
# Model: `varisat/src/clause/{alloc,db,gc,reduce,assess,activity}.rs`, `varisat/src/glue.rs`,
`varisat/src/prop/watch.rs` and the clause lists of `varisat/src/binary.rs`

Simplifications.
* The clause store is a map from references to literals and headers; a new clause gets the current
  buffer size as its reference, and the buffer grows by header and literals. That the word buffer of
  `alloc.rs` implements this map is a separate model. The limit on the buffer size is not modelled.
* A header is the record of its fields (its bit representation is `Verif.Model.Header`); the glue
  field saturates at 63.
* Counters are natural numbers with truncated subtraction (the counts are proved exact, so no
  subtraction underflows).
* Activities are elements of a linear order with the operations `Arith`.
-/
namespace Varisat.Solver

variable {α : Type} [LinearOrder α]

/-- `ClauseHeader`, `header.rs:36-38`, without the length; defaults as `ClauseHeader::new`,
`header.rs:41-44`. -/
structure Hdr (α : Type) where
  tier : Tier := .irred
  deleted : Bool := false
  mark : Bool := false
  active : Bool := false
  glue : Nat := 0
  activity : α

/-- `ClauseAlloc` (`alloc.rs:22-24`) and `ClauseDb` (`db.rs:48-57`). -/
structure Db (α : Type) where
  lits : Nat → List Lit := fun _ => []
  hdr : Nat → Hdr α
  /-- `buffer_size`, `alloc.rs:174-176` -/
  size : Nat := 0
  clauses : List Nat := []
  byTier : Tier → List Nat := fun _ => []
  count : Tier → Nat := fun _ => 0
  garbage : Nat := 0

/-- `Watchlists`, `watch.rs:54-68`. -/
structure Wl where
  watches : Lit → List Watch := fun _ => []
  enabled : Bool := true

/-- `BinaryClauses`, `binary.rs:15-18`. -/
structure Bins where
  byLit : Lit → List Lit := fun _ => []
  count : Nat := 0

/-- `HEADER_LEN`, `header.rs:9`. -/
def headerLen : Nat := 3

/-- `add_binary_clause`, `binary.rs:27-32`. -/
def Bins.add (b : Bins) (l0 l1 : Lit) : Bins :=
  let f := put b.byLit l0.neg (b.byLit l0.neg ++ [l1])
  { byLit := put f l1.neg (f l1.neg ++ [l0]), count := b.count + 1 }

/-- `watch_clause`, `watch.rs:79-91`. -/
def Wl.watchClause (w : Wl) (cref : Nat) (l0 l1 : Lit) : Wl :=
  if w.enabled then
    { w with watches := addWatch (addWatch w.watches l0.neg ⟨cref, l1⟩) l1.neg ⟨cref, l0⟩ }
  else w

/-- `disable`, `watch.rs:111-113`. -/
def Wl.disable (w : Wl) : Wl := { w with enabled := false }

namespace Db

/-- `ClauseAlloc::add_clause`, `alloc.rs:48-78`, for at least three literals (the callers below check
this): the new reference. -/
def alloc (db : Db α) (h : Hdr α) (lits : List Lit) : Db α × Nat :=
  ({ db with
     lits := put db.lits db.size lits
     hdr := put db.hdr db.size h
     size := db.size + headerLen + lits.length }, db.size)

/-- `add_clause`, `db.rs:67-86`; `none` is the panic for fewer than three literals
(`alloc.rs:51-54`). -/
def addClause (db : Db α) (w : Wl) (h : Hdr α) (lits : List Lit) : Option (Db α × Wl × Nat) :=
  match lits with
  | l0 :: l1 :: _ :: _ =>
    let r := db.alloc h lits
    let db := r.1
    some ({ db with
      clauses := db.clauses ++ [r.2]
      byTier := put db.byTier h.tier (db.byTier h.tier ++ [r.2])
      count := put db.count h.tier (db.count h.tier + 1) }, w.watchClause r.2 l0 l1, r.2)
  | _ => none

/-- `set_clause_tier`, `db.rs:91-107`. -/
def setTier (db : Db α) (cref : Nat) (tier : Tier) : Db α :=
  let old := (db.hdr cref).tier
  if old ≠ tier then
    let count := put db.count old (db.count old - 1)
    { db with
      count := put count tier (count tier + 1)
      hdr := put db.hdr cref { db.hdr cref with tier := tier }
      byTier := put db.byTier tier (db.byTier tier ++ [cref]) }
  else db

/-- The common part of `delete_clause` and `filter_clauses`, `db.rs:127-131`, `196-202`. -/
def delete (db : Db α) (cref : Nat) : Db α :=
  let h := db.hdr cref
  { db with
    hdr := put db.hdr cref { h with deleted := true }
    count := put db.count h.tier (db.count h.tier - 1)
    garbage := db.garbage + (db.lits cref).length + headerLen }

/-- `clauses_iter`, `db.rs:161-170`. -/
def iter (db : Db α) : List Nat := db.clauses.filter (fun c => !(db.hdr c).deleted)

/-- The test of `try_delete_clause`, `db.rs:148-150`; `none` is the panic for an empty clause. -/
def asserting (db : Db α) (p : Pt) (cref : Nat) : Option Bool :=
  match db.lits cref with
  | l :: _ => some (p.isTrue l && p.reason l.var == .long cref)
  | [] => none

/-- `set_mark`. -/
def setMark (db : Db α) (cref : Nat) (m : Bool) : Db α :=
  { db with hdr := put db.hdr cref { db.hdr cref with mark := m } }

/-- The loop of `dedup_and_mark_by_tier`, `reduce.rs:28-35`: the references kept. -/
def dedupMark (tier : Tier) : List Nat → Db α → Db α × List Nat
  | [], db => (db, [])
  | c :: cs, db =>
    let h := db.hdr c
    if !h.deleted && !h.mark && h.tier == tier then
      let r := dedupMark tier cs (db.setMark c true)
      (r.1, c :: r.2)
    else dedupMark tier cs db

/-- The comparison of `sort_unstable_by_key`, `reduce.rs:59-64`. -/
def actLe (db : Db α) (a b : Nat) : Bool :=
  let x := (db.hdr a).activity
  let y := (db.hdr b).activity
  decide (x < y ∨ (x = y ∧ a ≤ b))

/-- The loop of `reduce_locals`, `reduce.rs:70-100`, over the sorted local clauses: the new state, the
references kept and those deleted. -/
def reduceLoop (p : Pt) : Nat → List Nat → Db α → Wl → Option (Db α × Wl × List Nat × List Nat)
  | _, [], db, w => some (db, w, [], [])
  | todo, c :: cs, db, w =>
    let db := db.setMark c false
    if todo = 0 then
      (reduceLoop p todo cs db w).map (fun r => (r.1, r.2.1, c :: r.2.2.1, r.2.2.2))
    else
      match db.asserting p c with
      | none => none
      | some true => (reduceLoop p todo cs db w).map (fun r => (r.1, r.2.1, c :: r.2.2.1, r.2.2.2))
      | some false =>
        (reduceLoop p (todo - 1) cs (db.delete c) w.disable).map
          (fun r => (r.1, r.2.1, r.2.2.1, c :: r.2.2.2))

/-- `reduce_locals`, `reduce.rs:39-106`, without the proof steps: also the deleted references, in
order. Sorting by a total order on distinct references has only one result. -/
def reduceLocals (db : Db α) (p : Pt) (w : Wl) : Option (Db α × Wl × List Nat) :=
  let r := dedupMark .local_ (db.byTier .local_) db
  let db := { r.1 with byTier := put r.1.byTier .local_ [] }
  let locals := r.2.mergeSort db.actLe
  (reduceLoop p (locals.length / 2) locals db w).map (fun r =>
    ({ r.1 with
       count := put r.1.count .local_ r.2.2.1.length
       byTier := put r.1.byTier .local_ r.2.2.1 }, r.2.1, r.2.2.2))

/-- The loop of `reduce_mids`, `reduce.rs:117-128`: the references kept. -/
def midsLoop : List Nat → Db α → Db α × List Nat
  | [], db => (db, [])
  | c :: cs, db =>
    let db := db.setMark c false
    if (db.hdr c).active then
      let r := midsLoop cs { db with hdr := put db.hdr c { db.hdr c with active := false } }
      (r.1, c :: r.2)
    else midsLoop cs (db.setTier c .local_)

/-- `reduce_mids`, `reduce.rs:109-132`. -/
def reduceMids (db : Db α) : Db α :=
  let r := dedupMark .mid (db.byTier .mid) db
  let db := { r.1 with byTier := put r.1.byTier .mid [] }
  let r := midsLoop r.2 db
  { r.1 with
    count := put r.1.count .mid r.2.length
    byTier := put r.1.byTier .mid r.2 }

/-- `mark_asserting_clauses`, `gc.rs:99-109`. -/
def markAsserting (db : Db α) (p : Pt) : Db α :=
  p.trail.foldl (fun db lit =>
    match p.reason lit.var with
    | .long c => db.setMark c true
    | _ => db) db

/-- The loop of `collect_garbage_now`, `gc.rs:68-90`: `old` is the old store, `new` the new store and
lists; `none` is the panic for fewer than three literals (`alloc.rs:51-54`). -/
def gcLoop (old : Db α) : List Nat → Db α → Pt → Option (Db α × Pt)
  | [], new, p => some (new, p)
  | c :: cs, new, p =>
    let h := old.hdr c
    if h.deleted then gcLoop old cs new p
    else if (old.lits c).length < 3 then none
    else
      let r := new.alloc { h with mark := false } (old.lits c)
      let new := { r.1 with
        clauses := r.1.clauses ++ [r.2]
        byTier := put r.1.byTier h.tier (r.1.byTier h.tier ++ [r.2]) }
      let p :=
        if h.mark then
          match old.lits c with
          | l :: _ => { p with node := put p.node l.var { p.node l.var with reason := .long r.2 } }
          | [] => p
        else p
      gcLoop old cs new p

/-- `collect_garbage_now`, `gc.rs:35-96`; `none` is the a failing `assert!`. -/
def collectNow (db : Db α) (p : Pt) (w : Wl) : Option (Db α × Pt × Wl) :=
  let db := db.markAsserting p
  if db.garbage ≤ db.size then
    (gcLoop db db.clauses
      { db with
        lits := fun _ => []
        size := 0
        clauses := []
        byTier := fun _ => []
        garbage := 0 } p).map (fun r => (r.1, r.2, w.disable))
  else none

/-- `collect_garbage`, `gc.rs:12-29`. -/
def collect (db : Db α) (p : Pt) (w : Wl) : Option (Db α × Pt × Wl) :=
  if db.garbage * 2 > db.size then db.collectNow p w else some (db, p, w)

/-- `enable_watchlists`, `watch.rs:117-135`; `none` is the panic for a clause with fewer than two
literals. -/
def enableLoop (db : Db α) : List Nat → Wl → Option Wl
  | [], w => some w
  | c :: cs, w =>
    match db.lits c with
    | l0 :: l1 :: _ => enableLoop db cs (w.watchClause c l0 l1)
    | _ => none

@[inherit_doc enableLoop]
def enableWatchlists (db : Db α) (w : Wl) : Option Wl :=
  if w.enabled then some w
  else enableLoop db db.iter { watches := fun _ => [], enabled := true }

/-- `rescale_clause_activities`, `activity.rs:68-91`, without the bump value. -/
def rescale (ar : Arith α) (db : Db α) : Db α :=
  let cs := db.iter
  { db with
    clauses := cs
    hdr := fun c =>
      if c ∈ cs then { db.hdr c with activity := ar.shrink (db.hdr c).activity } else db.hdr c }

/-- `bump_clause_activity`, `activity.rs:46-65`: the new store and bump value. -/
def bumpActivity (ar : Arith α) (db : Db α) (bump : α) (cref : Nat) : Db α × α :=
  let activity := ar.add (db.hdr cref).activity bump
  let db := { db with hdr := put db.hdr cref { db.hdr cref with activity := activity } }
  if ar.big activity then (db.rescale ar, ar.shrink bump) else (db, bump)

/-- `decay_clause_activities`, `activity.rs:94-107`. (`>=` here and `>` in `bump_clause_activity` are
both `Arith.big`; the difference only matters for one float value.) -/
def decayActivities (ar : Arith α) (db : Db α) (bump : α) : Db α × α :=
  let bump := ar.grow bump
  if ar.big bump then (db.rescale ar, ar.shrink bump) else (db, bump)

end Db

/-- First loop of `compute_glue`, `glue.rs:21-28`. -/
def glueLoop (p : Pt) : List Lit → (Nat → Bool) → Nat → (Nat → Bool) × Nat
  | [], flags, glue => (flags, glue)
  | lit :: rest, flags, glue =>
    let level := p.level lit.var
    if flags level then glueLoop p rest flags glue
    else glueLoop p rest (put flags level true) (glue + 1)

/-- `compute_glue`, `glue.rs:14-36`: the new flags and the glue. -/
def computeGlue (p : Pt) (flags : Nat → Bool) (lits : List Lit) : (Nat → Bool) × Nat :=
  let r := glueLoop p lits flags 0
  (lits.foldl (fun f lit => put f (p.level lit.var) false) r.1, r.2)

/-- `select_tier`, `assess.rs:32-40`. -/
def selectTier (glue : Nat) : Tier :=
  if glue ≤ 2 then .core else if glue ≤ 6 then .mid else .local_

/-- `set_glue`, `header.rs:122-127`: saturating. -/
def satGlue (glue : Nat) : Nat := min glue 63

/-- `assess_learned_clause`, `assess.rs:15-29`. The subtraction wraps (a debug build would panic). -/
def assess (ar : Arith α) (p : Pt) (flags : Nat → Bool) (lits : List Lit) : (Nat → Bool) × Hdr α :=
  let r := computeGlue p flags lits
  let glue := if r.2 = 0 then 2 ^ 64 - 1 else r.2 - 1
  (r.1, { glue := satGlue glue, tier := selectTier glue, activity := ar.zero })

/-- `bump_clause`, `assess.rs:43-69`: the new store, bump value and flags. -/
def bumpClause (ar : Arith α) (p : Pt) (cref : Nat) (s : Db α × α × (Nat → Bool)) :
    Db α × α × (Nat → Bool) :=
  let r := s.1.bumpActivity ar s.2.1 cref
  let db := r.1
  let g := computeGlue p s.2.2 (db.lits cref)
  let db := { db with hdr := put db.hdr cref { db.hdr cref with active := true } }
  if g.2 < (db.hdr cref).glue then
    let db := { db with hdr := put db.hdr cref { db.hdr cref with glue := satGlue g.2 } }
    (db.setTier cref (selectTier g.2), r.2, g.1)
  else (db, r.2, g.1)

end Varisat.Solver
