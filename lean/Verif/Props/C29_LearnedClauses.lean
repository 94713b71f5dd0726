import Verif.Proof.Solver.Entail
import Verif.Proof.Solver.SampleSearch
/-!
# C29 Learned clauses are implied and asserting
-/
namespace Varisat.Solver
variable {α : Type} [LinearOrder α]

/-- The analysis of a conflict above level 0 does not panic. The learned clause follows from the
database, all its literals are false, exactly the first is of the current level. After backtracking to
the reported level the first literal is unassigned and the others are still false; the reported level
is the lowest with this property. -/
theorem C29.learned {s : St α} {c : Conflict} (h : Search s (.conflict c)) (hc : 0 < s.p.curLevel) (e : Env α) :
    ∃ L, analyze e s.p s.db.lits s.vflags s.vsids (s.varCount + 1) c = .ok L ∧
      Entails s L.clause ∧ (∀ l ∈ L.clause, s.p.isFalse l = true) ∧ (L.clause.map Lit.var).Nodup ∧
      ∃ u rest, L.clause = u :: rest ∧ s.p.level u.var = s.p.curLevel ∧
        (∀ l ∈ rest, s.p.level l.var < s.p.curLevel) ∧ L.backtrackTo < s.p.curLevel ∧
        (s.backtrack L.backtrackTo).p.value u.var = none ∧
        (∀ l ∈ rest, (s.backtrack L.backtrackTo).p.isFalse l = true) ∧
        ∀ k, k < L.backtrackTo → ∃ l ∈ rest, (s.backtrack k).p.value l.var = none := by
  obtain ⟨F, A, ids, h1, h2, _⟩ := h.inv
  have hp := h1.core.c.tr
  obtain ⟨L, e1, r⟩ := analyze_ok (e := e) h1.core.c h2 hc h1.fl h1.q.wf (fuel := s.varCount + 1)
    (Nat.le_succ_of_le (hp.length_le (fun l hl => h1.lt _ (h1.core.c.pres l hl))))
  obtain ⟨u, rest, l1, ⟨ku, l2, l3⟩, l4, l5, l6, l7, l8⟩ := r.eq
  have hbt : L.backtrackTo < s.p.curLevel := by
    cases rest with
    | nil => rw [l8 rfl]; exact hc
    | cons y ys => rw [← l7 y rfl]; obtain ⟨_, _, _, hy⟩ := l4 y (by simp); exact hy
  have hdec : ∀ k, k < s.p.curLevel → ∃ n, s.p.decisions[k]? = some n := by
    intro k hk
    rw [← Option.isSome_iff_exists, List.getElem?_eq_getElem hk]; rfl
  obtain ⟨n, hd⟩ := hdec _ hbt
  refine ⟨L, e1, fun ν hν => r.implied ν ((dbSat_iff hp ν).1 hν), ?_, ?_, u, rest, l1, l3,
    fun l hl => by obtain ⟨_, _, _, hy⟩ := l4 l hl; exact hy, hbt, ?_, ?_, ?_⟩
  · intro l hl
    rw [l1] at hl
    rw [← Pt.isTrue_neg]
    rcases List.mem_cons.1 hl with rfl | hl
    · exact hp.at_true l2
    · obtain ⟨k, hk, _⟩ := l4 l hl; exact hp.at_true hk
  · rw [l1, List.map_cons, List.nodup_cons]
    refine ⟨?_, l5⟩
    intro hm
    obtain ⟨y, hy, hyv⟩ := List.mem_map.1 hm
    obtain ⟨_, _, _, hlt⟩ := l4 y hy
    rw [hyv, l3] at hlt
    omega
  · have := Pt.backtrack_unassigned hp hd l2 (by simp only [Lit.var_neg]; omega)
    rw [Lit.var_neg] at this
    exact this
  · intro l hl
    obtain ⟨k, hk, _, _⟩ := l4 l hl
    rw [← Pt.isTrue_neg]
    exact Pt.backtrack_keep hp hd (fun _ => ⟨l.neg, hk.mem, rfl⟩) (hp.at_true hk) (by simpa using l6 l hl)
  · intro k hk
    cases rest with
    | nil => rw [l8 rfl] at hk; omega
    | cons y ys =>
      obtain ⟨j, hj, _⟩ := l4 y (by simp)
      obtain ⟨m, hm⟩ := hdec k (by omega)
      refine ⟨y, by simp, ?_⟩
      have := Pt.backtrack_unassigned hp hm hj (by simp only [Lit.var_neg]; rw [l7 y rfl]; exact hk)
      rw [Lit.var_neg] at this
      exact this

/-- For a conflict in level 0 the empty clause is learned, and it follows from the database. -/
theorem C29.level_zero {s : St α} {c : Conflict} (h : Search s (.conflict c)) (hc : s.p.curLevel = 0) (e : Env α) :
    ∃ L, analyze e s.p s.db.lits s.vflags s.vsids (s.varCount + 1) c = .ok L ∧ L.clause = [] ∧ Entails s [] := by
  obtain ⟨F, A, ids, h1, h2, _⟩ := h.inv
  have hp := h1.core.c.tr
  refine ⟨{ clause := [], backtrackTo := 0, involved := [], hashes := [clauseHash (c.lits s.db.lits)], flags := s.vflags, vsids := s.vsids }, ?_, rfl, ?_⟩
  · unfold analyze; simp only; rw [if_pos hc]
  · intro ν hν
    have hm := (dbSat_iff hp ν).1 hν
    obtain ⟨l, hl, hls⟩ := Conflict.sat h2.isIn hm.sat
    exfalso
    obtain ⟨k, hk⟩ := hp.at_of_false (h2.att l hl).2 (h2.false_ l hl)
    have : l.neg.holds ν := by
      refine hm.root _ ⟨hp.at_true hk, .inl ⟨k, hk, ?_⟩⟩
      have := lvl_le s.p.decisions k
      unfold Pt.curLevel at hc
      omega
    rw [Lit.holds_neg] at this
    exact this hls

theorem Db.addClause_db {db db' : Db α} {w w' : Wl} {h : Hdr α} {ls : List Lit} {c : Nat}
    (k : db.addClause w h ls = some (db', w', c)) (hd : h.deleted = false) :
    c ∈ db'.clauses ∧ (db'.hdr c).deleted = false ∧ db'.lits c = ls := by
  unfold Db.addClause at k
  split at k
  · cases k
    simp [Db.alloc, put, hd]
  · cases k

/-- The solver backtracks, stores the learned clause (a single literal is only assigned) and assigns its
first literal. -/
theorem C29.stored {s s' : St α} {c : Conflict} {e : Env α} {L : Learned α} {u : Lit} {rest : List Lit}
    (hL : analyze e s.p s.db.lits s.vflags s.vsids (s.varCount + 1) c = .ok L) (hu : L.clause = u :: rest)
    (hs : s.learn e c = .ok s') :
    s'.p.trail = (s.backtrack L.backtrackTo).p.trail ++ [u] ∧ s'.p.isTrue u = true ∧
      (rest = [] ∨ InDb s' L.clause) := by
  unfold St.learn at hs
  rw [hL, ok_bind] at hs
  simp only at hs
  obtain ⟨t, h1, h2⟩ := bind_inv hs
  have hemit : ∀ {a b : St α} {x : ProofStep}, a.emit x = .ok b → b.p = a.p ∧ b.bins = a.bins ∧ b.db = a.db := by
    intro a b x hx
    unfold St.emit at hx
    split at hx
    · cases hx; exact ⟨rfl, rfl, rfl⟩
    · cases hx
  obtain ⟨t1, t2, t3⟩ := hemit h1
  have hp : t.p = (s.backtrack L.backtrackTo).p := by rw [t1]; rfl
  have htrue : ∀ (p : Pt) (r : Reason), (p.enqueue u r).isTrue u = true := by
    intro p r
    rw [Pt.isTrue_iff]
    simp [Pt.enqueue, put]
  rw [hu] at h2 ⊢
  match rest, h2 with
  | [], h2 =>
    rw [St.addLearned] at h2
    cases h2
    exact ⟨by rw [← hp]; rfl, htrue _ _, .inl rfl⟩
  | [l1], h2 =>
    rw [St.addLearned] at h2
    cases h2
    refine ⟨by rw [← hp]; rfl, htrue _ _, .inr ?_⟩
    have : l1 ∈ (t.bins.add u l1).byLit u.neg := by
      by_cases he : u.neg = l1.neg
      · simp [Bins.add, put, he]
      · simp [Bins.add, put, he]
    have := InDb.bin (s := { t with bins := t.bins.add u l1, p := t.p.enqueue u (.binary l1) }) u.neg l1 this
    simpa using this
  | l1 :: l2 :: ls, h2 =>
    unfold St.addLearned at h2
    simp only at h2
    split at h2
    · cases h2
    · rename_i db w cref ha
      cases h2
      obtain ⟨a1, a2, a3⟩ := Db.addClause_db ha rfl
      refine ⟨by rw [← hp]; rfl, htrue _ _, .inr ?_⟩
      have := InDb.long (s := { t with
        db := db
        w := w
        tmp := (assess e.car t.p t.tmp (u :: l1 :: l2 :: ls)).1
        p := t.p.enqueue u (.long cref) }) cref a1 a2
      rw [show (St.db _).lits cref = _ from a3] at this
      exact this

/-- A conflict in level 3 with a learned clause of two literals and backtracking to level 1. -/
example : ∃ (s : St Nat) (c : Conflict) (L : Learned Nat), Search s (.conflict c) ∧ s.p.curLevel = 3 ∧
    analyze Sample.env s.p s.db.lits s.vflags s.vsids (s.varCount + 1) c = .ok L ∧ L.clause.length = 2 ∧
    L.backtrackTo = 1 := by
  obtain ⟨s, ph, h1, h2⟩ := Sample.peek_search
    (f := fun s ph => match ph with
      | .conflict c =>
        match analyze Sample.env s.p s.db.lits s.vflags s.vsids (s.varCount + 1) c with
        | .ok L => some (s.p.curLevel, L.clause.length, L.backtrackTo)
        | .error _ => none
      | _ => none)
    (ops := [Sample.cl [1, 2, 3], Sample.cl [1, 2, -3], Sample.asm [-1, -5, -2]])
    (ms := [.propagate, .simplify, .assumption, .propagate, .simplify,
      .assumption, .propagate, .simplify, .assumption, .propagate])
    (x := some (3, 2, 1)) (by decide +kernel)
  cases ph with
  | conflict c =>
    simp only at h2
    split at h2
    · rename_i L hL
      simp only [Option.some.injEq, Prod.mk.injEq] at h2
      exact ⟨s, c, L, h1, h2.1, hL, h2.2⟩
    · cases h2
  | _ => cases h2

end Varisat.Solver
