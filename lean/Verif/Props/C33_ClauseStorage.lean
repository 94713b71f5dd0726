import Verif.Proof.AllocUses
import Verif.Proof.Solver.Entail
import Verif.Proof.Solver.SampleSearch
import Verif.Props.C34_Header
/-!
# C33 Clause storage and garbage collection keep every live clause

First the word buffer, for all sequences of operations on it; then the collection and all other steps of
the search.
-/
namespace Varisat

/-- A reference resolves to the clause that was stored under it, whatever was done to other clauses. -/
theorem C33.resolves {b : Buf} {m : Store} (u : Uses b m) {c : Nat} {h : Header} {lits : List Word}
    (hc : m c = some (h, lits)) : b.clause c = some (h, lits) ∧ b.header c = some h ∧ h.fields.len = lits.length := by
  obtain ⟨ext, l⟩ := u.lay
  have a := l.at_ c h lits hc
  exact ⟨a.clause, a.header, a.len⟩

/-- A new clause gets a new reference, and its metadata is as given, with the length filled in. -/
theorem C33.fresh {b b' : Buf} {m : Store} (u : Uses b m) {header : Header} {lits : List Word} {c : Nat}
    (hl : lits.length < 2 ^ 32) (h : b.addClause header lits = some (b', c)) :
    m c = none ∧ (header.setLen lits.length).fields = { header.fields with len := lits.length } := by
  refine ⟨?_, C34.set_len _ _ hl⟩
  obtain ⟨ext, l⟩ := u.lay
  obtain ⟨rfl, _⟩ := addClause_some h
  cases hm : m b.words.length with
  | none => rfl
  | some x =>
    have := (l.at_ _ x.1 x.2 hm).inside
    unfold Buf.headerLen at this
    omega

/-- No operation on a stored clause panics; storing one does only if it is too short or the buffer is
full. -/
theorem C33.no_panic {b : Buf} {m : Store} (u : Uses b m) :
    (∀ header lits, 3 ≤ lits.length → b.bufferSize < 2 ^ 32 → (b.addClause header lits).isSome = true) ∧
    (∀ c h lits, m c = some (h, lits) → (∀ f, (b.headerMut c f).isSome = true) ∧
      ∀ new, new.length ≤ lits.length → (b.writeLits c new).isSome = true) := by
  obtain ⟨ext, l⟩ := u.lay
  constructor
  · intro header lits h3 hb
    unfold Buf.addClause Buf.maxOffset
    unfold Buf.bufferSize at hb
    simp only
    rw [if_neg (by omega), if_neg (by omega)]
    rfl
  · intro c h lits hc
    have a := l.at_ c h lits hc
    refine ⟨fun f => by unfold Buf.headerMut; rw [a.header]; rfl, fun new hn => ?_⟩
    unfold Buf.writeLits
    rw [a.clause]
    simp only
    rw [a.len, if_pos hn]
    rfl

/-- Copying the clauses of a list of references, in the order of their allocation, to a new buffer does not
panic. It keeps exactly those that are not deleted, in order, with the same literals and the same metadata
except for the mark, which is reset. -/
theorem C33.copied {b : Buf} {m : Store} (u : Uses b m) (hb : b.bufferSize ≤ 2 ^ 32) {refs : List Nat}
    (hs : refs.Pairwise (· < ·))
    (hr : ∀ c ∈ refs, ∃ h lits, m c = some (h, lits) ∧ (h.deleted = false → 3 ≤ lits.length)) :
    ∃ new pairs m', b.copyLoop refs {} = some (new, pairs) ∧ Uses new m' ∧
      (∀ c, c ∈ pairs.map (·.1) ↔ c ∈ refs ∧ ∃ h lits, m c = some (h, lits) ∧ h.deleted = false) ∧
      (pairs.map (·.1)).Pairwise (· < ·) ∧ (pairs.map (·.2)).Pairwise (· < ·) ∧
      (∀ d, m' d ≠ none ↔ d ∈ pairs.map (·.2)) ∧
      ∀ c d, (c, d) ∈ pairs → ∃ h lits h', m c = some (h, lits) ∧ m' d = some (h', lits) ∧
        h'.fields = { h.fields with mark := false } := by
  obtain ⟨ext, l⟩ := u.lay
  obtain ⟨new, ps, m', k1, k2, k3, k4, _, _, k7, k8⟩ := copyLoop_ok l (by unfold Buf.maxOffset; exact hb) refs hs hr {} (fun _ => none)
    .empty (by simp) (by simp)
  refine ⟨new, ps, m', k1, k2, ?_, ?_, k4, ?_, ?_⟩
  · intro c
    rw [k3, List.mem_filter]
    constructor
    · rintro ⟨h1, h2⟩
      obtain ⟨h, lits, e, _⟩ := hr c h1
      rw [e] at h2
      exact ⟨h1, h, lits, e, by simpa using h2⟩
    · rintro ⟨h1, h, lits, e, h2⟩
      exact ⟨h1, by rw [e]; simpa using h2⟩
  · rw [k3]; exact hs.filter _
  · intro d
    rw [k7 d (Nat.zero_le _), List.mem_map]
  · intro c d hcd
    obtain ⟨h, ls, e1, e2⟩ := k8 _ hcd
    exact ⟨h, ls, _, e1, e2, C34.set_mark h false⟩

/-- Two clauses, one of them deleted and one shortened, and what a copy keeps. -/
example : ∃ b m, Uses b m ∧ (∃ h, m 0 = some (h, [2, 4, 6, 9]) ∧ h.deleted = true) ∧
    (∃ h, m 7 = some (h, [1, 5, 8]) ∧ h.deleted = false ∧ h.mark = true) ∧ b.bufferSize = 14 ∧
    (b.copyLoop [0, 7] {}).map (·.2) = some [(7, 0)] := by
  have u0 := Uses.add (header := ⟨fun _ => 0⟩) (lits := [2, 4, 6, 9]) (b' := _) (c := _) .empty (by decide) rfl
  have u1 := Uses.add (header := ⟨fun _ => 0⟩) (lits := [1, 3, 5, 8]) (b' := _) (c := _) u0 (by decide) rfl
  have u2 := Uses.header (c := 0) (fun h => h.setDeleted true) u1 (b' := _) rfl rfl rfl
  have u3 := Uses.header (c := 7) (fun h => h.setMark true) u2 (b' := _) rfl rfl rfl
  have u4 := Uses.write (c := 7) (new := [1, 5, 8]) u3 (b' := _) rfl (by decide) rfl
  have u5 := Uses.shrink (c := 7) 3 u4 (b' := _) rfl (by decide) rfl
  exact ⟨_, _, u5, ⟨_, rfl, by decide⟩, ⟨_, rfl, by decide, by decide⟩, by decide, by decide⟩

end Varisat

namespace Varisat.Solver
variable {α : Type} [LinearOrder α]

/-- The reference is that of a clause which is not deleted. -/
def IsClause (s : St α) (c : Nat) : Prop := c ∈ s.db.clauses ∧ (s.db.hdr c).deleted = false

/-- In every state of a search the references are in the order of allocation, the regions of the clauses do not overlap,
and all are inside the buffer. -/
theorem C33.layout {s : St α} {ph : Phase} (h : Search s ph) :
    s.db.clauses.Pairwise (fun c d => c + headerLen + (s.db.lits c).length ≤ d) ∧
    ∀ c ∈ s.db.clauses, c + headerLen + (s.db.lits c).length ≤ s.db.size := by
  obtain ⟨F, A, ids, h1, _⟩ := h.inv
  exact ⟨h1.core.dbi.lay, h1.core.dbi.fit⟩

/-- The clause that is the reason of an assignment is not deleted, and has that assignment as its first
literal. -/
theorem C33.reason_first {s : St α} {ph : Phase} (h : Search s ph) {l : Lit} {c : Nat} (hl : l ∈ s.p.trail)
    (hr : s.p.reason l.var = .long c) : IsClause s c ∧ ∃ rest, s.db.lits c = l :: rest := by
  obtain ⟨F, A, ids, h1, _⟩ := h.inv
  obtain ⟨k, hk⟩ := Pt.At.of_mem hl
  have := h1.core.c.rs k l hk
  unfold ReasonAt at this
  rw [hr] at this
  obtain ⟨k1, rest, k2, _⟩ := this
  exact ⟨k1, rest, k2⟩

/-- A collection does not panic. It keeps exactly the clauses that are not deleted, in order; each has the
same literals in the same order and the same metadata under its new reference `g c`. The reasons of
assignments are renamed in the same way, and nothing else about the assignments changes. -/
theorem C33.collection {s : St α} (h : Search s .ready) : ∃ db p w g,
    s.db.collect s.p s.w = some (db, p, w) ∧
    db.clauses.filter (fun c => !(db.hdr c).deleted) = (s.db.clauses.filter (fun c => !(s.db.hdr c).deleted)).map g ∧
    (∀ c d, IsClause s c → IsClause s d → g c = g d → c = d) ∧
    (∀ c, IsClause s c → db.lits (g c) = s.db.lits c ∧ db.hdr (g c) = s.db.hdr c) ∧
    (∀ l ∈ s.p.trail, (∀ c, s.p.reason l.var = .long c → p.reason l.var = .long (g c)) ∧
      ((∀ c, s.p.reason l.var ≠ .long c) → p.reason l.var = s.p.reason l.var)) ∧
    p.trail = s.p.trail ∧ p.value = s.p.value ∧ p.decisions = s.p.decisions ∧ p.qhead = s.p.qhead ∧
    ∀ v, p.level v = s.p.level v := by
  obtain ⟨F, A, ids, h1, _⟩ := h.inv
  unfold Db.collect
  split
  · obtain ⟨db', p', g, e1, r⟩ := Db.collectNow_ok h1.core.dbi h1.core.c.tr s.w h1.core.c.len (by
      intro l hl c hr
      exact C33.reason_first h hl hr)
    refine ⟨db', p', _, g, e1, ?_, r.inj, fun c hc => ⟨r.lits c hc, r.hdr c hc⟩, ?_, r.node.trail, r.node.value,
      r.node.decisions, r.node.qhead, r.node.level⟩
    · rw [List.filter_eq_self.2]
      · rw [r.clauses]; rfl
      · intro c hc
        rw [r.clauses] at hc
        obtain ⟨d, hd, rfl⟩ := List.mem_map.1 hc
        have := (r.live (g d)).2 ⟨d, Db.mem_iter.1 hd, rfl⟩
        rw [this.2]; rfl
    · intro l hl
      have := r.reason l hl
      constructor
      · intro c hc; rw [this, hc]; rfl
      · intro hc
        rw [this]
        cases hr : s.p.reason l.var with
        | long c => exact absurd hr (hc c)
        | _ => rfl
  · exact ⟨_, _, _, id, rfl, by simp, fun _ _ _ _ k => k, fun _ _ => ⟨rfl, rfl⟩, fun l _ => ⟨fun _ k => k, fun _ => rfl⟩,
      rfl, rfl, rfl, rfl, fun _ => rfl⟩

/-- The steps of the search, except for the collection and the simplification. -/
inductive Step : St α → Phase → St α → Prop
  | restart (s : St α) (e : Env α) : Step s .ready (s.restartStep e)
  | reduceLocals (s s' : St α) : s.reduceLocals = .ok s' → Step s .ready s'
  | reduceMids (s : St α) : Step s .ready { s with db := s.db.reduceMids }
  | count (s : St α) (n : Nat) : Step s .ready { s with sched := { s.sched with conflicts := n } }
  | propagate (s s' : St α) (o : Option Conflict) : s.propagate = .ok (s', o) → Step s .ready s'
  | assumption (s s' : St α) (r : St.Enq) : s.enqueueAssumption = .ok (s', r) → Step s .fixpoint s'
  | decision (s s1 : St α) : s.enqueueAssumption = .ok (s1, .done) → Step s .fixpoint s1.makeDecision.1
  | learn (s s1 s' : St α) (c : Conflict) (b : Bool) (e : Env α) : s.proveUnits = .ok (s1, b) →
    s1.learn e c = .ok s' → Step s (.conflict c) s'

/-- Several steps. -/
inductive Path (s : St α) : St α → Prop
  | refl : Path s s
  | step {s1 s2 : St α} {ph : Phase} : Path s s1 → Search s1 ph → Step s1 ph s2 → Path s s2

theorem emit_db {a b : St α} {x : ProofStep} (hx : a.emit x = .ok b) : b.db = a.db := by
  unfold St.emit at hx
  split at hx
  · cases hx; rfl
  · cases hx

theorem emitAll_db : ∀ {xs : List ProofStep} {a b : St α}, St.emitAll xs a = .ok b → b.db = a.db
  | [], _, _, h => by cases h; rfl
  | _ :: _, _, _, h => by
    obtain ⟨t, h1, h2⟩ := bind_inv h
    rw [emitAll_db h2, emit_db h1]

theorem addLearned_kept {e : Env α} {s s' : St α} {ls : List Lit} (hi : DbInv s.db) (h : s.addLearned e ls = .ok s') :
    s.db.size ≤ s'.db.size ∧ ∀ c < s.db.size, (IsClause s' c ↔ IsClause s c) ∧ s'.db.lits c = s.db.lits c := by
  unfold St.addLearned at h
  split at h
  · cases h; exact ⟨le_refl _, fun _ _ => ⟨Iff.rfl, rfl⟩⟩
  · cases h; exact ⟨le_refl _, fun _ _ => ⟨Iff.rfl, rfl⟩⟩
  · cases h; exact ⟨le_refl _, fun _ _ => ⟨Iff.rfl, rfl⟩⟩
  · simp only at h
    split at h
    · cases h
    · rename_i db w cref hadd
      cases h
      unfold Db.addClause at hadd
      split at hadd
      · cases hadd
        refine ⟨by simp only [Db.alloc]; omega, fun c hc => ⟨?_, ?_⟩⟩
        · have hne : c ≠ s.db.size := by omega
          simp [IsClause, Db.alloc, put, hne]
        · have hne : c ≠ s.db.size := by omega
          simp [Db.alloc, put, hne]
      · cases hadd

theorem Step.kept {s s' : St α} {ph : Phase} (h : Search s ph) (k : Step s ph s') : s.db.size ≤ s'.db.size ∧
    (∀ c < s.db.size, IsClause s' c → IsClause s c ∧ (s'.db.lits c).Perm (s.db.lits c)) ∧
    (s.reduceLocals ≠ .ok s' → ∀ c, IsClause s c → IsClause s' c) := by
  have same : ∀ {t : St α}, t.db = s.db → s.db.size ≤ t.db.size ∧
      (∀ c < s.db.size, IsClause t c → IsClause s c ∧ (t.db.lits c).Perm (s.db.lits c)) ∧
      (s.reduceLocals ≠ .ok t → ∀ c, IsClause s c → IsClause t c) := by
    intro t ht
    unfold IsClause
    rw [ht]
    exact ⟨le_refl _, fun c _ hc => ⟨hc, .refl _⟩, fun _ c hc => hc⟩
  obtain ⟨F, A, ids, h1, h2, h3, h4, _⟩ := h.inv
  cases k with
  | restart e => 
    refine same ?_
    unfold St.restartStep; split <;> rfl
  | count n => exact same rfl
  | reduceLocals _ he =>
    obtain ⟨db', w', dels, e1, r⟩ := Db.reduceLocals_ok h1.core.dbi (fun c hc hn => by
      have : 3 ≤ (s.db.lits c).length := h1.core.c.len c hc
      rw [hn] at this; simp at this) s.p s.w
    have hdb : s'.db = db' := by
      unfold St.reduceLocals at he
      rw [e1] at he
      simp only at he
      exact emitAll_db he
    refine ⟨by rw [hdb, r.size], fun c hc hl => ?_, fun hn => absurd he hn⟩
    unfold IsClause at hl ⊢
    rw [hdb] at hl ⊢
    exact ⟨((r.live c).1 hl).1, by rw [r.lits]⟩
  | reduceMids =>
    obtain ⟨r1, r2, r3⟩ := Db.reduceMids_ok h1.core.dbi
    exact ⟨by rw [r2.size], fun c _ hl => ⟨(r2.live c).1 hl, by rw [r2.lits]⟩, fun _ c hc => (r2.live c).2 hc⟩
  | propagate _ o he =>
    obtain ⟨t, o, e1, e2, e3, e4, e5, _⟩ := h1.propagate h2
    rw [he] at e1; cases e1
    have ec : s'.db.clauses = s.db.clauses := by rw [e4]
    have eh : s'.db.hdr = s.db.hdr := by rw [e4]
    have es : s'.db.size = s.db.size := by rw [e4]
    unfold IsClause
    rw [ec, eh, es]
    exact ⟨le_refl _, fun c _ hc => ⟨hc, e5 c⟩, fun _ c hc => hc⟩
  | assumption _ r he =>
    obtain ⟨t, r, f1, f2, f3, _⟩ := h1.enqueueAssumption h2.1 h2.2 (h4 (.inr rfl))
    rw [he] at f1; cases f1
    exact same f3.db
  | decision s1 he =>
    obtain ⟨t, r, f1, f2, f3, _⟩ := h1.enqueueAssumption h2.1 h2.2 (h4 (.inr rfl))
    rw [he] at f1; cases f1
    refine same ?_
    rw [← f3.db]
    unfold St.makeDecision
    simp only
    split <;> rfl
  | learn s1 _ c b e hp hs =>
    have fin : ∀ {t : St α} {db : Db α} {e : Env α} {ls : List Lit}, DbInv db → DbSame s.db db → t.db = db →
        t.addLearned e ls = .ok s' → s.db.size ≤ s'.db.size ∧
        (∀ c < s.db.size, IsClause s' c → IsClause s c ∧ (s'.db.lits c).Perm (s.db.lits c)) ∧
        (s.reduceLocals ≠ .ok s' → ∀ c, IsClause s c → IsClause s' c) := by
      intro t db e ls hi hsame ht ha
      subst ht
      obtain ⟨a1, a2⟩ := addLearned_kept hi ha
      rw [hsame.size] at a1 a2
      refine ⟨a1, fun c hc hl => ?_, fun _ c hc => ((a2 c (h1.core.dbi.lt c hc.1)).1).2 ((hsame.live c).2 hc)⟩
      obtain ⟨b1, b2⟩ := a2 c hc
      exact ⟨(hsame.live c).1 (b1.1 hl), by rw [b2, hsame.lits]⟩
    by_cases hd : s.p.decisions = []
    · obtain ⟨q, L, p1, p2, p3, p4, p5, p6, p7⟩ := St.proveUnits_zero h1.core.c.tr hd h1.core.c.pres
      rw [hp] at p1; cases p1
      unfold St.learn analyze at hs
      simp only at hs
      rw [if_pos (by unfold Pt.curLevel; rw [p5]; rfl), ok_bind] at hs
      obtain ⟨t, ht, hs⟩ := bind_inv hs
      obtain ⟨d1, d2⟩ := Db.decayActivities_same e.car h1.core.dbi s.cbump
      exact fin d1 d2 ((emit_db ht)) hs
    · have hpos : s.p.curLevel ≠ 0 := by
        unfold Pt.curLevel; simpa using hd
      have p1 : s.proveUnits = .ok (s, false) := by unfold St.proveUnits; rw [if_neg hpos]
      rw [hp] at p1; cases p1
      obtain ⟨L, e1, r⟩ := analyze_ok (e := e) h1.core.c h2 (by omega) h1.fl h1.q.wf (fuel := s.varCount + 1)
        (Nat.le_succ_of_le (h1.core.c.tr.length_le (fun l hl => h1.lt _ (h1.core.c.pres l hl))))
      unfold St.learn at hs
      rw [show analyze e s.p s.db.lits s.vflags s.vsids (s.varCount + 1) c = .ok L from e1, ok_bind] at hs
      simp only at hs
      obtain ⟨t, ht, hs⟩ := bind_inv hs
      obtain ⟨b1, b2⟩ := Db.bumpAll_same e.car s.p L.involved (s.db, s.cbump, s.tmp) h1.core.dbi r.inv
      obtain ⟨d1, d2⟩ := Db.decayActivities_same e.car b1 
        (L.involved.foldl (fun b cref => bumpClause e.car s.p cref b) (s.db, s.cbump, s.tmp)).2.1
      exact fin d1 (b2.trans d2) (emit_db ht) hs

/-- Along all steps of the search other than collection and simplification, a reference that was in use
and is that of a clause still resolves to the same literals (propagation may reorder them). -/
theorem C33.stable {s s' : St α} (h : Path s s') : s.db.size ≤ s'.db.size ∧
    ∀ c < s.db.size, IsClause s' c → IsClause s c ∧ (s'.db.lits c).Perm (s.db.lits c) := by
  induction h with
  | refl => exact ⟨le_refl _, fun c _ hc => ⟨hc, .refl _⟩⟩
  | step _ hs hk ih =>
    obtain ⟨k1, k2, _⟩ := hk.kept hs
    refine ⟨ih.1.trans k1, fun c hc hl => ?_⟩
    obtain ⟨a, b⟩ := k2 c (lt_of_lt_of_le hc ih.1) hl
    obtain ⟨a', b'⟩ := ih.2 c hc a
    exact ⟨a', b.trans b'⟩

theorem emit_p {a b : St α} {x : ProofStep} (hx : a.emit x = .ok b) : b.p = a.p := by
  unfold St.emit at hx
  split at hx
  · cases hx; rfl
  · cases hx

theorem emitAll_p : ∀ {xs : List ProofStep} {a b : St α}, St.emitAll xs a = .ok b → b.p = a.p
  | [], _, _, h => by cases h; rfl
  | _ :: _, _, _, h => by
    obtain ⟨t, h1, h2⟩ := bind_inv h
    rw [emitAll_p h2, emit_p h1]

theorem simplifyClause_kept {s s' : St α} {c : Nat} {b : Bool} (h : s.simplifyClause c = .ok (s', b)) :
    s'.p = s.p ∧ s'.db.size = s.db.size ∧ s'.db.hdr = s.db.hdr ∧ (∀ d, d ≠ c → s'.db.lits d = s.db.lits d) ∧
    (b = true → s'.db.lits c = (s.db.lits c).filter s.p.isUnk ∧ ∀ l ∈ s.db.lits c, s.p.isTrue l = false) := by
  unfold St.simplifyClause at h
  simp only at h
  split at h
  · obtain ⟨t, h1, h2⟩ := bind_inv h
    cases h2
    rw [emit_db h1]
    exact ⟨emit_p h1, rfl, rfl, fun _ _ => rfl, by simp⟩
  · rename_i hany
    have hany' : ∀ l ∈ s.db.lits c, s.p.isTrue l = false := by
      intro l hl
      simp only [List.any_eq_true, not_exists, not_and, Bool.not_eq_true] at hany
      exact hany l hl
    split at h
    · obtain ⟨t, h1, h⟩ := bind_inv h
      obtain ⟨u, h2, h⟩ := bind_inv h
      have e : u.db = s.db := (emit_db h2).trans (emit_db h1)
      have ep : u.p = s.p := (emit_p h2).trans (emit_p h1)
      split at h
      · cases h
      · cases h
      · cases h
        exact ⟨ep, by rw [e], by rw [e], fun _ _ => by rw [e], by simp⟩
      · cases h
        simp only [e]
        refine ⟨ep, trivial, trivial, fun d hd => by simp [put, hd], fun _ => ⟨by simp [put], hany'⟩⟩
    · rename_i hlen
      cases h
      refine ⟨rfl, rfl, rfl, fun _ _ => rfl, fun _ => ⟨?_, hany'⟩⟩
      exact (List.filter_eq_self.2 (List.length_filter_eq_length_iff.1
        (le_antisymm (List.length_filter_le _ _) (not_lt.1 hlen)))).symm

theorem filterLoop_kept : ∀ (cs : List Nat) {s s' : St α} {ks : List Nat}, cs.Nodup → St.filterLoop cs s = .ok (s', ks) →
    s'.p = s.p ∧ s'.db.size = s.db.size ∧ (∀ c, (s'.db.hdr c).deleted = false → (s.db.hdr c).deleted = false) ∧
    (∀ c, c ∉ cs → s'.db.lits c = s.db.lits c) ∧
    ∀ c ∈ ks, c ∈ cs ∧ s'.db.lits c = (s.db.lits c).filter s.p.isUnk ∧ ∀ l ∈ s.db.lits c, s.p.isTrue l = false
  | [], s, s', ks, _, h => by
    cases h
    exact ⟨rfl, rfl, fun _ k => k, fun _ _ => rfl, by simp⟩
  | c :: cs, s, s', ks, hn, h => by
    obtain ⟨hnc, hn⟩ := List.nodup_cons.1 hn
    rw [St.filterLoop] at h
    split at h
    · obtain ⟨a1, a2, a3, a5, a6⟩ := filterLoop_kept cs hn h
      exact ⟨a1, a2, a3, fun d hd => a5 d (fun k => hd (by simp [k])), fun d hd => ⟨by simp [(a6 d hd).1], (a6 d hd).2⟩⟩
    · obtain ⟨⟨t, b⟩, h1, h⟩ := bind_inv h
      obtain ⟨s1, s2, s3, s4, s5⟩ := simplifyClause_kept h1
      have fin : ∀ {u u' : St α} {ks' : List Nat}, u.p = t.p → u.db.size = t.db.size → u.db.lits = t.db.lits →
          (∀ d, (u.db.hdr d).deleted = false → (t.db.hdr d).deleted = false) → St.filterLoop cs u = .ok (u', ks') →
          u'.p = s.p ∧ u'.db.size = s.db.size ∧ (∀ c, (u'.db.hdr c).deleted = false → (s.db.hdr c).deleted = false) ∧
          (∀ d, d ∉ c :: cs → u'.db.lits d = s.db.lits d) ∧ u'.db.lits c = t.db.lits c ∧
          ∀ d ∈ ks', d ∈ cs ∧ u'.db.lits d = (s.db.lits d).filter s.p.isUnk ∧ ∀ l ∈ s.db.lits d, s.p.isTrue l = false := by
        intro u u' ks' q1 q2 q3 q4 q5
        obtain ⟨a1, a2, a3, a5, a6⟩ := filterLoop_kept cs hn q5
        refine ⟨a1.trans (q1.trans s1), a2.trans (q2.trans s2), fun d hd => by rw [← s3]; exact q4 d (a3 d hd), ?_, ?_, ?_⟩
        · intro d hd
          rw [a5 d (fun k => hd (by simp [k])), q3, s4 d (fun k => hd (by simp [k]))]
        · rw [a5 c hnc, q3]
        · intro d hd
          have := a6 d hd
          rw [q3, s4 d (fun k => hnc (by rw [← k]; exact this.1)), q1, s1] at this
          exact this
      cases b with
      | true =>
        simp only [if_true] at h
        obtain ⟨⟨u, ks'⟩, h2, h⟩ := bind_inv h
        cases h
        obtain ⟨a1, a2, a3, a4, a5, a6⟩ := fin rfl rfl rfl (fun _ k => k) h2
        refine ⟨a1, a2, a3, a4, ?_⟩
        intro d hd
        rcases List.mem_cons.1 hd with rfl | hd
        · exact ⟨by simp, a5.trans (s5 rfl).1, (s5 rfl).2⟩
        · exact ⟨by simp [(a6 d hd).1], (a6 d hd).2⟩
      | false =>
        simp only [Bool.false_eq_true, if_false] at h
        obtain ⟨a1, a2, a3, a4, a5, a6⟩ := fin (u := { t with db := t.db.delete c }) rfl rfl rfl (by
          intro d hd
          by_cases hdc : d = c
          · subst hdc; simp [Db.delete, put] at hd
          · simpa [Db.delete, put, hdc] using hd) h
        exact ⟨a1, a2, a3, a4, fun d hd => ⟨by simp [(a6 d hd).1], (a6 d hd).2⟩⟩

theorem deleteGlobal_db {s s' : St α} {g : Nat} (h : s.deleteGlobal g = .ok s') : s'.db = s.db := by
  unfold St.deleteGlobal at h
  split at h
  · cases h; rfl
  · split at h
    · cases h; rfl
    · split at h
      · cases h
      · split at h
        · cases h
        · split at h <;> cases h <;> rfl

theorem removeLoop_db : ∀ (vs : List Nat) {s s' : St α}, St.removeLoop vs s = .ok s' → s'.db = s.db
  | [], _, _, h => by cases h; rfl
  | v :: vs, s, s', h => by
    rw [St.removeLoop] at h
    split at h
    · exact removeLoop_db vs h
    · obtain ⟨t, h1, h⟩ := bind_inv h
      have e : t.db = s.db := by
        unfold St.updSolverData at h1
        split at h1
        · cases h1
        · split at h1
          · cases h1; rfl
          · cases h1
      rw [← e]
      split at h
      · cases h
      · split at h
        · obtain ⟨u, h2, h⟩ := bind_inv h
          rw [removeLoop_db vs h]
          unfold St.removeSolverVar at h2
          split at h2
          · cases h2
          · simp only at h2
            have := deleteGlobal_db h2
            exact this
        · exact removeLoop_db vs h

/-- Simplification in level 0 only removes the assigned literals from the clauses it keeps, and these have no
true literal. -/
theorem C33.simplified {s s1 s' : St α} {b : Bool} (h : Search s .propagated) (hd : s.p.decisions = [])
    (hp : s.proveUnits = .ok (s1, b)) (hs : (if b then s1.unitSimplify else .ok s1) = .ok s') :
    s'.db.size = s.db.size ∧ ∀ c, IsClause s' c → IsClause s c ∧ (b = true →
      s'.db.lits c = (s.db.lits c).filter s.p.isUnk ∧ ∀ l ∈ s.db.lits c, s.p.isTrue l = false) ∧
      (b = false → s'.db.lits c = s.db.lits c) := by
  obtain ⟨F, A, ids, h1, _⟩ := h.inv
  obtain ⟨q, L, p1, p2, p3, p4, p5, p6, p7⟩ := St.proveUnits_zero h1.core.c.tr hd h1.core.c.pres
  rw [hp] at p1
  cases p1
  cases hb : (!s.p.trail.isEmpty) with
  | false =>
    rw [hb] at hs
    cases hs
    exact ⟨rfl, fun c hc => ⟨hc, by simp, fun _ => rfl⟩⟩
  | true =>
    rw [hb] at hs
    simp only [if_true] at hs
    unfold St.unitSimplify at hs
    obtain ⟨t, t1, hs⟩ := bind_inv hs
    obtain ⟨⟨u, ks⟩, u1, hs⟩ := bind_inv hs
    have td : t.db = s.db ∧ t.p = q := by
      unfold St.simplifyBinary at t1
      obtain ⟨x, x1, x2⟩ := bind_inv t1
      cases x2
      have x3 := emitAll_db x1
      have x4 := emitAll_p x1
      exact ⟨x3, x4⟩
    obtain ⟨a1, a2, a3, a4, a5⟩ := filterLoop_kept _ (by simp only [td.1]; exact h1.core.dbi.nodup) u1
    have e := removeLoop_db _ hs
    simp only [td.1, td.2] at a1 a2 a3 a4 a5 e
    have hu : ∀ l, q.isUnk l = s.p.isUnk l := by
      intro l; unfold Pt.isUnk; rw [p3]
    have ht : ∀ l, q.isTrue l = s.p.isTrue l := by
      intro l; unfold Pt.isTrue; rw [p3]
    refine ⟨by rw [e]; exact a2, fun c hc => ?_⟩
    unfold IsClause at hc
    rw [e] at hc ⊢
    obtain ⟨k1, k2⟩ := hc
    obtain ⟨k3, k4, k5⟩ := a5 c k1
    refine ⟨⟨k3, a3 c k2⟩, fun _ => ⟨?_, fun l hl => by rw [← ht]; exact k5 l hl⟩, by simp⟩
    show u.db.lits c = _
    rw [k4]
    exact List.filter_congr (fun l _ => hu l)

/-- All references of clauses are in use, that is, below the buffer size; so a new clause does not get the
reference of another one. Only a reduction deletes clauses. -/
theorem C33.kept {s s' : St α} {ph : Phase} (h : Search s ph) (k : Step s ph s') :
    (∀ c, IsClause s c → c < s.db.size) ∧ (s.reduceLocals ≠ .ok s' → ∀ c, IsClause s c → IsClause s' c) := by
  obtain ⟨F, A, ids, h1, _⟩ := h.inv
  exact ⟨fun c hc => h1.core.dbi.lt c hc.1, (k.kept h).2.2⟩

/-- After a clause was satisfied and removed, a collection moves the other one, which is the reason of an
assignment. -/
example : ∃ (s : St Nat) (db : Db Nat) (p : Pt) (w : Wl), Search s .ready ∧ s.db.collect s.p s.w = some (db, p, w) ∧
    s.db.garbage * 2 > s.db.size ∧ s.db.clauses = [10] ∧ db.clauses = [0] ∧
    s.db.lits 10 = [5, 6, 7].map Lit.fromDimacs ∧ db.lits 0 = s.db.lits 10 ∧
    s.p.reason 4 = .long 10 ∧ p.reason 4 = .long 0 := by
  obtain ⟨s, ph, h1, h2⟩ := Sample.peek_search
    (f := fun s ph => match ph with
      | .ready =>
        match s.db.collect s.p s.w with
        | some (db, p, _) => decide (s.db.garbage * 2 > s.db.size ∧ s.db.clauses = [10] ∧ db.clauses = [0] ∧
            s.db.lits 10 = [5, 6, 7].map Lit.fromDimacs ∧ db.lits 0 = s.db.lits 10 ∧
            s.p.reason 4 = .long 10 ∧ p.reason 4 = .long 0)
        | none => false
      | _ => false)
    (ops := [Sample.cl [1, 2, 3, 4, 5, 6, 7], Sample.cl [5, 6, 7], Sample.cl [1]])
    (ms := [.propagate, .simplify, .decision, .propagate, .simplify, .decision, .propagate, .simplify, .decision])
    (x := true) (by decide +kernel)
  cases ph with
  | ready =>
    simp only at h2
    split at h2
    · rename_i db p w e1
      exact ⟨s, db, p, w, h1, e1, of_decide_eq_true h2⟩
    · cases h2
  | _ => simp at h2

/-- A state with two stored clauses. -/
example : ∃ (s : St Nat) (ph : Phase), Search s ph ∧ s.db.clauses = [0, 6] ∧ s.db.size = 13 := by
  obtain ⟨s, ph, h1, h2⟩ := Sample.peek_search (f := fun s _ => (s.db.clauses, s.db.size))
    (ops := [Sample.cl [1, 2, 3], Sample.cl [1, 2, -3, 4]]) (ms := [.propagate]) (x := ([0, 6], 13)) (by decide +kernel)
  simp only [Prod.mk.injEq] at h2
  exact ⟨s, ph, h1, h2⟩

end Varisat.Solver
