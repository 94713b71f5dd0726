import Verif.Proof.Solver.FailedCore
import Verif.Proof.Solver.SampleSearch
/-!
# C42 Glue and scratch flags

`compute_glue` counts the different decision levels and leaves clean flags clean. The flags are clean in
all reachable states as long as no failed core of one literal was reported; after such a core they need
not be (`C42.dirty_flags`), and then the number computed can be too small (`C42.wrong_glue`).
-/
namespace Varisat.Solver
open Api (Hist)
variable {α : Type} [LinearOrder α]

/-- With clean flags, the glue is the number of different decision levels, and the flags are clean again. -/
theorem C42.compute_glue (p : Pt) {flags : Nat → Bool} (h : ∀ v, flags v = false) (c : List Lit) :
    (computeGlue p flags c).2 = levelCount p c ∧ ∀ v, (computeGlue p flags c).1 v = false :=
  computeGlue_clean h c

/-- The flags are clean after all calls unless a failed core of one literal was reported. The full claim
has no such condition. -/
theorem C42.clean_partial {s : St α} {h : Hist} (x : Exec s h)
    (hn : ¬ ∃ l hs, ProofStep.failedAssumptions [l] hs ∈ s.log) : ∀ v, s.tmp v = false :=
  x.tidy.resolve_right hn

/-- The same at all places in a search. -/
theorem C42.clean_search_partial {s : St α} {ph : Phase} (x : Search s ph)
    (hn : ¬ ∃ l hs, ProofStep.failedAssumptions [l] hs ∈ s.log) : ∀ v, s.tmp v = false :=
  SearchFrom.tidy x |>.resolve_right hn

/-- `analyze_assumption_conflict` is the only function that can leave a flag set, and at most one. -/
theorem C42.one_flag {s s' : St α} {h : Hist} {e : Env α} {op : Op} {r : List Nat} (x : Exec s h) (hc : ∀ v, s.tmp v = false)
    (hs : s.step e op = .ok (s', r)) : ∃ w, ∀ v, v ≠ w → s'.tmp v = false := by
  obtain ⟨a, ids, _, hi⟩ := x.inv
  by_cases hop : ∃ n, op = .solve n
  · obtain ⟨n, rfl⟩ := hop
    obtain ⟨⟨t, b⟩, h1, h2⟩ := bind_inv (show (s.solve e n >>= fun q => pure (q.1, [if q.2 then 1 else 0])) = .ok (s', r) from hs)
    cases h2
    rcases hi.solve_core h1 with ⟨g, _⟩ | ⟨_, _, _, k⟩
    · exact ⟨0, fun v _ => g.tmp hc v⟩
    · exact (k hc).2.1
  · exact ⟨0, fun v _ => (St.step_grow hs (fun n hn => hop ⟨n, hn⟩)).tmp hc v⟩

theorem levelCount_congr {p q : Pt} (h : ∀ v, q.level v = p.level v) (c : List Lit) : levelCount q c = levelCount p c := by
  unfold levelCount
  simp only [h]

theorem levelCount_pos {p : Pt} {c : List Lit} (h : c ≠ []) : 0 < levelCount p c := by
  unfold levelCount
  rw [List.length_pos_iff]
  intro k
  rw [List.dedup_eq_nil] at k
  exact h (List.map_eq_nil_iff.1 k)

theorem St.backtrack_level' (s : St α) (n v : Nat) : (s.backtrack n).p.level v = s.p.level v := by
  show ((s.p.backtrack n).1).level v = _
  cases h : s.p.decisions[n]? with
  | none => unfold Pt.backtrack; rw [h]
  | some k => exact Pt.backtrack_level h v

/-- The glue stored with a learned clause is one less than the number of decision levels that its
literals have at the conflict, at most 63; and the flags are clean afterwards. -/
theorem C42.learned_partial {s s' : St α} {c : Conflict} {e : Env α} {L : Learned α} (h : Search s (.conflict c))
    (hn : ¬ ∃ l hs, ProofStep.failedAssumptions [l] hs ∈ s.log)
    (hL : analyze e s.p s.db.lits s.vflags s.vsids (s.varCount + 1) c = .ok L) (h3 : 2 < L.clause.length)
    (hs : s.learn e c = .ok s') :
    (∃ cr ∈ s'.db.clauses, s'.db.lits cr = L.clause ∧ (s'.db.hdr cr).glue = min (levelCount s.p L.clause - 1) 63) ∧
      ∀ v, s'.tmp v = false := by
  have hc := C42.clean_search_partial h hn
  refine ⟨?_, (St.learn_grow hs).tmp hc⟩
  unfold St.learn at hs
  rw [hL, ok_bind] at hs
  simp only at hs
  obtain ⟨t, h1, h2⟩ := bind_inv hs
  have hemit : t.p = (s.backtrack L.backtrackTo).p ∧ ∀ v, t.tmp v = false := by
    unfold St.emit at h1
    split at h1
    · cases h1
      exact ⟨rfl, bumpAll_clean e.car s.p L.involved hc⟩
    · cases h1
  have hlv : ∀ v, t.p.level v = s.p.level v := by
    intro v; rw [hemit.1]; exact St.backtrack_level' s _ v
  generalize L.clause = ls at *
  match ls, h3, h2 with
  | l0 :: l1 :: l2 :: rest, _, h2 =>
    unfold St.addLearned at h2
    simp only at h2
    unfold Db.addClause at h2
    simp only at h2
    cases h2
    obtain ⟨g1, g2⟩ := computeGlue_clean hemit.2 (p := t.p) (l0 :: l1 :: l2 :: rest)
    refine ⟨t.db.size, ?_, ?_, ?_⟩
    · exact List.mem_append_right _ (List.mem_singleton.2 rfl)
    · simp [Db.alloc, put]
    · have : (t.db.alloc (assess e.car t.p t.tmp (l0 :: l1 :: l2 :: rest)).2 (l0 :: l1 :: l2 :: rest)).1.hdr t.db.size =
          (assess e.car t.p t.tmp (l0 :: l1 :: l2 :: rest)).2 := by simp [Db.alloc, put]
      refine (congrArg Hdr.glue this).trans ?_
      unfold assess
      simp only
      have hp := levelCount_pos (p := s.p) (c := l0 :: l1 :: l2 :: rest) (by simp)
      rw [g1, levelCount_congr hlv, if_neg (by omega)]
      rfl

theorem Db.rescale_glue (ar : Arith α) (db : Db α) (c : Nat) : ((db.rescale ar).hdr c).glue = (db.hdr c).glue := by
  unfold Db.rescale
  simp only
  split <;> rfl

theorem Db.bumpActivity_glue (ar : Arith α) (db : Db α) (b : α) (k c : Nat) :
    ((db.bumpActivity ar b k).1.hdr c).glue = (db.hdr c).glue ∧ (db.bumpActivity ar b k).1.lits = db.lits := by
  unfold Db.bumpActivity
  simp only
  have h : ∀ x : α, (put db.hdr k { db.hdr k with activity := x } c).glue = (db.hdr c).glue := by
    intro x
    unfold put
    split
    · rename_i q; rw [q]
    · rfl
  split
  · exact ⟨(Db.rescale_glue ar _ c).trans (h _), rfl⟩
  · exact ⟨h _, rfl⟩

theorem Db.setTier_glue (db : Db α) (k : Nat) (t : Tier) (c : Nat) :
    ((db.setTier k t).hdr c).glue = (db.hdr c).glue ∧ (db.setTier k t).lits = db.lits := by
  unfold Db.setTier
  simp only
  split
  · refine ⟨?_, rfl⟩
    simp only [put]
    split
    · rename_i q; rw [q]
    · rfl
  · exact ⟨rfl, rfl⟩

/-- The glue of one clause after `bump_clause`. -/
theorem C42.bump_one (ar : Arith α) (p : Pt) (k c : Nat) {b : Db α × α × (Nat → Bool)} (h : ∀ v, b.2.2 v = false)
    (h63 : (b.1.hdr k).glue ≤ 63) :
    ((bumpClause ar p k b).1.hdr c).glue = (if c = k then min (b.1.hdr c).glue (levelCount p (b.1.lits c)) else (b.1.hdr c).glue) ∧
      (bumpClause ar p k b).1.lits = b.1.lits := by
  obtain ⟨g1, g2⟩ := Db.bumpActivity_glue ar b.1 b.2.1 k c
  obtain ⟨g3, _⟩ := Db.bumpActivity_glue ar b.1 b.2.1 k k
  unfold bumpClause
  simp only
  rw [(computeGlue_clean h _).1, g2]
  generalize (b.1.bumpActivity ar b.2.1 k).1 = db at *
  have hk : (put db.hdr k { db.hdr k with active := true } k).glue = (b.1.hdr k).glue := by simp [put, g3]
  rw [hk]
  split
  · rename_i hlt
    refine ⟨(Db.setTier_glue _ _ _ _).1.trans ?_, (Db.setTier_glue _ _ _ c).2.trans rfl⟩
    simp only [put]
    by_cases hc : c = k
    · subst hc
      simp only [if_true, satGlue]
      omega
    · rw [if_neg hc, if_neg hc, if_neg hc]; exact g1
  · rename_i hlt
    refine ⟨?_, rfl⟩
    simp only [put]
    by_cases hc : c = k
    · subst hc
      simp only [if_true]
      rw [g1]; omega
    · rw [if_neg hc, if_neg hc]; exact g1

/-- After bumping the clauses involved in a conflict, the glue of each of them is the smaller one of its
earlier glue and its current number of decision levels; all others keep theirs. (The glue field of a header
has six bits, so the second condition always holds; see C34.) -/
theorem C42.bumped (ar : Arith α) (p : Pt) : ∀ (cs : List Nat) {b : Db α × α × (Nat → Bool)}, (∀ v, b.2.2 v = false) →
    (∀ c, (b.1.hdr c).glue ≤ 63) → ∀ c, ((cs.foldl (fun b k => bumpClause ar p k b) b).1.hdr c).glue =
      if c ∈ cs then min (b.1.hdr c).glue (levelCount p (b.1.lits c)) else (b.1.hdr c).glue
  | [], _, _, _, c => by simp
  | k :: cs, b, h, h63, c => by
    obtain ⟨h1, h2⟩ := C42.bump_one ar p k c h (h63 k)
    rw [List.foldl_cons, C42.bumped ar p cs (bumpClause_clean ar p k h) (fun d => by
      obtain ⟨h1, _⟩ := C42.bump_one ar p k d h (h63 k)
      rw [h1]
      have := h63 d
      split <;> omega) c, h1, h2]
    by_cases hc : c = k
    · simp only [hc, List.mem_cons, true_or, if_true]
      split <;> omega
    · simp only [hc, List.mem_cons, false_or, if_false]

open Sample in
/-- A concrete case of `learned_partial`: a conflict in level 3, learning a clause of three literals. -/
example : ∃ (s : St Nat) (c : Conflict) (L : Learned Nat) (s' : St Nat), Search s (.conflict c) ∧
    (¬ ∃ l hs, ProofStep.failedAssumptions [l] hs ∈ s.log) ∧
    analyze env s.p s.db.lits s.vflags s.vsids (s.varCount + 1) c = .ok L ∧ 2 < L.clause.length ∧ s.learn env c = .ok s' ∧
    levelCount s.p L.clause = 3 := by
  obtain ⟨s, ph, h1, h2⟩ := peek_search
    (f := fun s ph => match ph with
      | .conflict c =>
        match analyze env s.p s.db.lits s.vflags s.vsids (s.varCount + 1) c, s.learn env c with
        | .ok L, .ok _ => decide (L.clause.length = 3 ∧ levelCount s.p L.clause = 3 ∧
            s.log.all (fun x => match x with | .failedAssumptions _ _ => false | _ => true) = true)
        | _, _ => false
      | _ => false)
    (ops := [cl [1, 2, 3, 4], cl [1, 2, 3, -4], asm [-1, -2, -3]])
    (ms := [.propagate, .simplify, .assumption, .propagate, .simplify, .assumption, .propagate, .simplify, .assumption, .propagate])
    (x := true) (by decide +kernel)
  cases ph with
  | conflict c =>
    simp only at h2
    split at h2
    · rename_i L s' h3 h4
      obtain ⟨h5, h6, h7⟩ := of_decide_eq_true h2
      refine ⟨s, c, L, s', h1, ?_, h3, by omega, h4, h6⟩
      rintro ⟨l, hs, h8⟩
      have := List.all_eq_true.1 h7 _ h8
      cases this
    · cases h2
  | _ => cases h2

open Sample in
/-- The flags need not be clean: after a failed core of one literal the flag of its variable is set. -/
theorem C42.dirty_flags : ∃ (s : St Nat) (h : Hist), Exec s h ∧ h.map (·.2) = [[], [1], [], [0]] ∧ s.tmp 0 = true := by
  obtain ⟨s, rs, h1, h2⟩ := see_exec (f := fun s rs => (rs, s.tmp 0)) (ops := [cl [-1], .solve 9, asm [1], .solve 9])
    (x := ([[], [1], [], [0]], true)) (by decide +kernel)
  obtain ⟨rfl, h3⟩ := Prod.mk.injEq _ _ _ _ ▸ h2
  exact ⟨s, _, h1, rfl, h3⟩

open Sample in
/-- Then the number computed for the clause of a later conflict is too small: 2 for a clause with literals
of 3 different levels. -/
theorem C42.wrong_glue : ∃ (s : St Nat) (cr : Nat), Search s (.conflict (.long cr)) ∧ cr ∈ s.db.clauses ∧
    (s.db.hdr cr).deleted = false ∧ (computeGlue s.p s.tmp (s.db.lits cr)).2 = 2 ∧ levelCount s.p (s.db.lits cr) = 3 := by
  obtain ⟨s, ph, h1, h2⟩ := peek_search
    (f := fun s ph => match ph with
      | .conflict (.long cr) => decide (cr ∈ s.db.clauses ∧ (s.db.hdr cr).deleted = false ∧
          (computeGlue s.p s.tmp (s.db.lits cr)).2 = 2 ∧ levelCount s.p (s.db.lits cr) = 3)
      | _ => false)
    (ops := [cl [1, 2], cl [-3], .solve 9, asm [3], .solve 9, cl [1, 4, 5, 6], cl [1, 4, 5, -6], asm [-1, -4, -5]])
    (ms := [.propagate, .simplify, .assumption, .propagate, .simplify, .assumption, .propagate, .simplify, .assumption, .propagate])
    (x := true) (by decide +kernel)
  cases ph with
  | conflict c =>
    cases c with
    | long cr => exact ⟨s, cr, h1, of_decide_eq_true h2⟩
    | _ => cases h2
  | _ => cases h2

end Varisat.Solver
