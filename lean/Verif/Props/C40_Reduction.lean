import Verif.Proof.Solver.Entail
import Verif.Proof.Solver.SampleSearch
/-!
# C40 Database reduction deletes only redundant, non-asserting clauses
-/
namespace Varisat.Solver
variable {α : Type} [LinearOrder α]

/-- The reference is that of a clause which is not deleted. -/
def IsLive (s : St α) (c : Nat) : Prop := c ∈ s.db.clauses ∧ (s.db.hdr c).deleted = false

/-- `reduce_locals` does not panic. It keeps every irredundant clause, every clause of another tier and
every clause that is the reason of an assignment, with literals and metadata, and adds nothing. At most
half of the local clauses are deleted, and those have the smallest activity among the clauses that could
be deleted. Assignments and binary clauses are not changed. -/
theorem C40.locals {s : St α} (h : Search s .ready) : ∃ s', s.reduceLocals = .ok s' ∧
    (∀ c, IsLive s c → ((s.db.hdr c).tier ≠ .local_ ∨ ∃ l ∈ s.p.trail, s.p.reason l.var = .long c) → IsLive s' c) ∧
    (∀ c, IsLive s' c → IsLive s c ∧ s'.db.lits c = s.db.lits c ∧ s'.db.hdr c = s.db.hdr c) ∧
    (∃ dels : List Nat, dels.Nodup ∧ (∀ c, IsLive s c → (IsLive s' c ↔ c ∉ dels)) ∧ dels.length ≤ s.db.count .local_ / 2 ∧
      ∀ c ∈ dels, ∀ d, IsLive s' d → (s.db.hdr d).tier = .local_ → (∀ l ∈ s.p.trail, s.p.reason l.var ≠ .long d) →
        (s.db.hdr c).activity ≤ (s.db.hdr d).activity) ∧
    s'.p = s.p ∧ s'.bins = s.bins := by
  obtain ⟨F, A, ids, h1, h2, _⟩ := h.inv
  have hc := h1.core.c
  obtain ⟨db', w', dels, e1, r⟩ := Db.reduceLocals_ok h1.core.dbi (fun c hl hn => by
    have : 3 ≤ (s.db.lits c).length := hc.len c hl
    rw [hn] at this; simp at this) s.p s.w
  obtain ⟨L, hL⟩ := St.emitAll_ok (xs := dels.map (fun c => .deleteClause (s.db.lits c) .redundant))
    (s := { s with
      db := db'
      w := w' }) (by
      intro x hx l hl
      obtain ⟨c, hcd, rfl⟩ := List.mem_map.1 hx
      exact (hc.vars c (r.only c hcd).1 l hl).1)
  have hass : ∀ c, s.db.Live c → (∀ l ∈ s.p.trail, s.p.reason l.var ≠ .long c) → s.db.asserting s.p c = some false := by
    intro c hl hn
    unfold Db.asserting
    have hlen : 3 ≤ (s.db.lits c).length := hc.len c hl
    cases hls : s.db.lits c with
    | nil => rw [hls] at hlen; simp at hlen
    | cons l ls =>
      simp only [Option.some.injEq, Bool.and_eq_false_iff]
      by_cases ht : s.p.isTrue l = true
      · right
        obtain ⟨k, hk⟩ := hc.tr.at_of_true (hc.vars c hl l (by show l ∈ s.db.lits c; rw [hls]; simp)).2 ht
        simpa using hn l hk.mem
      · left; simpa using ht
  refine ⟨{ s with db := db', w := w', log := L }, ?_, ?_, ?_, ⟨dels, r.nodup, ?_, r.half, ?_⟩, rfl, rfl⟩
  · unfold St.reduceLocals
    rw [e1]
    exact hL
  · rintro c hl hor
    refine (r.live c).2 ⟨hl, fun hd => ?_⟩
    obtain ⟨_, o2, o3⟩ := r.only c hd
    rcases hor with hor | ⟨l, hl1, hl2⟩
    · exact hor o2
    · obtain ⟨k, hk⟩ := Pt.At.of_mem hl1
      have hra := hc.rs k l hk
      unfold ReasonAt at hra
      rw [hl2] at hra
      obtain ⟨_, rest, hre, _⟩ := hra
      have hre : s.db.lits c = l :: rest := hre
      unfold Db.asserting at o3
      rw [hre] at o3
      simp [hc.tr.at_true hk, hl2] at o3
  · intro c hl
    exact ⟨((r.live c).1 hl).1, congrFun r.lits c, r.hdr c hl⟩
  · intro c hl
    exact ⟨fun k => ((r.live c).1 k).2, fun k => (r.live c).2 ⟨hl, k⟩⟩
  · intro c hd d hdl ht hn
    have := r.low c hd d hdl ht (hass d ((r.live d).1 hdl).1 hn)
    unfold Db.actLe at this
    rcases of_decide_eq_true this with k | k
    · exact le_of_lt k
    · exact le_of_eq k.1

/-- `reduce_mids` deletes nothing; it makes a clause of the middle tier that was not used a local one, and
changes no other tier. -/
theorem C40.mids {s : St α} (h : Search s .ready) :
    (∀ c, IsLive { s with db := s.db.reduceMids } c ↔ IsLive s c) ∧ s.db.reduceMids.lits = s.db.lits ∧
    ∀ c, IsLive s c → (s.db.reduceMids.hdr c).tier =
      if (s.db.hdr c).tier = .mid ∧ (s.db.hdr c).active = false then .local_ else (s.db.hdr c).tier := by
  obtain ⟨F, A, ids, h1, h2, _⟩ := h.inv
  obtain ⟨r1, r2, r3⟩ := Db.reduceMids_ok h1.core.dbi
  exact ⟨r2.live, r2.lits, r3⟩

/-- In every state of a search, before and after reductions, the counts per tier are the numbers of
clauses of the tier that are not deleted, and no clause is listed twice. -/
theorem C40.counts {s : St α} {ph : Phase} (h : Search s ph) (t : Tier) :
    s.db.count t = (s.db.clauses.filter (fun c => !(s.db.hdr c).deleted && (s.db.hdr c).tier == t)).length ∧
    s.db.clauses.Nodup := by
  obtain ⟨F, A, ids, h1, h2, _⟩ := h.inv
  refine ⟨?_, h1.core.dbi.nodup⟩
  rw [h1.core.dbi.count t, List.countP_eq_length_filter]
  rfl

/-- Two learned clauses that became local; the reduction keeps all clauses of the formula and at least one
of the two. -/
example : ∃ s s' : St Nat, Search s .ready ∧ s.db.count .local_ = 2 ∧ IsLive s 32 ∧ IsLive s 39 ∧
    s.db.lits 32 = [1, 4, 2, 3].map Lit.fromDimacs ∧ s.db.lits 39 = [4, 3, 2, -1].map Lit.fromDimacs ∧
    s.reduceLocals = .ok s' ∧ (∀ c ∈ [0, 8, 16, 24], IsLive s' c) ∧ (IsLive s' 32 ∨ IsLive s' 39) := by
  obtain ⟨s, ph, h1, h2⟩ := Sample.peek_search
    (f := fun s ph => match ph with
      | .ready => decide (s.db.count .local_ = 2 ∧ s.db.clauses = [0, 8, 16, 24, 32, 39] ∧
            [0, 8, 16, 24, 32, 39].all (fun c => !(s.db.hdr c).deleted) = true ∧
            [0, 8, 16, 24].all (fun c => decide ((s.db.hdr c).tier = .irred)) = true ∧
            s.db.lits 32 = [1, 4, 2, 3].map Lit.fromDimacs ∧ s.db.lits 39 = [4, 3, 2, -1].map Lit.fromDimacs)
      | _ => false)
    (ops := [Sample.cl [1, 2, 3, 4, 5], Sample.cl [1, 2, 3, 4, -5], Sample.cl [-1, 2, 3, 4, 5],
      Sample.cl [-1, 2, 3, 4, -5], Sample.asm [-1, -2, -3, -4], .solve 50, Sample.asm [1, -2, -3, -4],
      .solve 50, Sample.asm []])
    (ms := [.reduceMids, .reduceMids])
    (x := true) (by decide +kernel)
  cases ph with
  | ready =>
    obtain ⟨a1, a2, a3, a4, a5, a6⟩ := of_decide_eq_true h2
    obtain ⟨s', e, k1, _, ⟨dels, _, d2, d3, _⟩, _⟩ := C40.locals h1
    simp only [List.all_eq_true, Bool.not_eq_true', decide_eq_true_eq] at a3 a4
    have live : ∀ c ∈ [0, 8, 16, 24, 32, 39], IsLive s c := fun c hc => ⟨by rw [a2]; exact hc, a3 c hc⟩
    have l1 := live 32 (by simp)
    have l2 := live 39 (by simp)
    refine ⟨s, s', h1, a1, l1, l2, a5, a6, e, fun c hc => k1 c (live c ?_) (Or.inl ?_), ?_⟩
    · simp only [List.mem_cons, List.not_mem_nil, or_false] at hc ⊢; omega
    · rw [a4 c hc]; decide
    · rw [d2 32 l1, d2 39 l2]
      rw [a1] at d3
      match dels, d3 with
      | [], _ => simp
      | [x], _ => simp only [List.mem_singleton]; omega
      | x :: y :: l, d3 => simp at d3
  | _ => simp at h2

end Varisat.Solver
