import Verif.Proof.CheckerInv
/-! Multiplicities of stored clauses. -/
namespace Varisat.Checker

/-- Contribution of an entry to the multiplicity of the clause `k`. -/
def wt1 (red : Bool) (k : List Lit) (e : Entry) : Int :=
  if e.lits = k then (if red then (e.red : Int) else e.irred) else 0

/-- Multiplicity of `k` among the entries. -/
def wt (red : Bool) (k : List Lit) (es : List Entry) : Int := (es.map (wt1 red k)).sum

theorem wt_perm {red k es es'} (h : es.Perm es') : wt red k es = wt red k es' := by
  unfold wt
  induction h with
  | nil => rfl
  | cons x _ ih => simp [ih]
  | swap x y l => simp only [List.map_cons, List.sum_cons]; omega
  | trans _ _ h1 h2 => exact h1.trans h2

theorem wt_cons (red k) (e : Entry) (es : List Entry) : wt red k (e :: es) = wt1 red k e + wt red k es := by
  simp [wt]

theorem Same.wt {s s' red k} (h : Same s s') :
    wt red k (ents s'.buffer s'.clauses) = wt red k (ents s.buffer s.clauses) := wt_perm h.perm

theorem StoreEff.wt {red' lits n es es' id res} (h : StoreEff red' lits n es es' id res) (red : Bool) (k : List Lit) :
    wt red k es' = wt red k es + (if lits = k ∧ red = red' then 1 else 0) := by
  cases h with
  | found e R hl h h' =>
    rw [wt_perm h', wt_perm h, wt_cons, wt_cons]
    unfold wt1
    simp only [hl]
    by_cases hk : lits = k
    · cases red <;> cases red' <;> simp [hk] <;> ring
    · simp [hk]
  | fresh hn h' =>
    rw [wt_perm h', wt_cons]
    unfold wt1
    by_cases hk : lits = k
    · cases red <;> cases red' <;> simp [hk] <;> ring
    · simp [hk]

theorem DelEff.wt {red' lits es es' id res} (h : DelEff red' lits es es' id res) (red : Bool) (k : List Lit) :
    wt red k es' = wt red k es - (if lits = k ∧ red = red' then 1 else 0) := by
  cases h with
  | gone e R hl h hpos hz h' =>
    rw [wt_perm h', wt_perm h, wt_cons]
    unfold wt1
    simp only [hl]
    by_cases hk : lits = k
    · cases red <;> cases red' <;> simp_all
    · simp [hk]
  | kept e R hl h hpos hnz h' =>
    rw [wt_perm h', wt_perm h, wt_cons, wt_cons]
    unfold wt1
    simp only [hl]
    by_cases hk : lits = k
    · cases red <;> cases red' <;> simp_all <;> omega
    · simp [hk]

/-- Only the deleted clause has to be present. -/
theorem DelEff.pos {red lits es es' id res} (h : DelEff red lits es es' id res) :
    ∃ e ∈ es, e.lits = lits ∧ 0 < (if red then e.red else e.irred) := by
  cases h with
  | gone e R hl h hpos hz h' => exact ⟨e, h.mem_iff.2 (List.mem_cons_self ..), hl, by omega⟩
  | kept e R hl h hpos hnz h' => exact ⟨e, h.mem_iff.2 (List.mem_cons_self ..), hl, hpos⟩

theorem wt1_nonneg (red k e) : 0 ≤ wt1 red k e := by
  unfold wt1
  split
  · split <;> omega
  · omega

theorem wt_nonneg (red k es) : 0 ≤ wt red k es := by
  induction es with
  | nil => simp [wt]
  | cons e es ih => rw [wt_cons]; have := wt1_nonneg red k e; omega

theorem wt_mem {red : Bool} {k : List Lit} {e : Entry} : ∀ {es : List Entry}, e ∈ es → e.lits = k →
    ((if red then e.red else e.irred : Nat) : Int) ≤ wt red k es := by
  intro es
  induction es with
  | nil => simp
  | cons f es ih =>
    intro he hl
    rw [wt_cons]
    rcases List.mem_cons.1 he with rfl | he
    · have := wt_nonneg red k es
      unfold wt1
      rw [if_pos hl]
      cases red <;> simp_all
    · have := ih he hl
      have := wt1_nonneg red k f
      omega

/-- Storing a clause of any length changes only the multiplicity of that clause. -/
theorem Stored.wt {lits red' s s' id res} (h : Stored lits red' s s' id res) (red : Bool) {k : List Lit}
    (hk : 2 ≤ k.length) :
    wt red k (ents s'.buffer s'.clauses) =
      wt red k (ents s.buffer s.clauses) + (if lits = k ∧ red = red' then 1 else 0) := by
  have hno : ∀ l : List Lit, l.length < 2 → ¬ (l = k ∧ red = red') := by
    rintro l hl ⟨rfl, -⟩; omega
  cases h.kind with
  | empty hl he => rw [he, if_neg (hno _ (by simp [hl]))]; simp
  | unitDup l id hl hv he => rw [he, if_neg (hno _ (by simp [hl]))]; simp
  | unitConflict l id hl hv he => rw [he, if_neg (hno _ (by simp [hl]))]; simp
  | unitNew l hl hv he => rw [he, if_neg (hno _ (by simp [hl]))]; simp
  | long _ _ hl he => exact he.wt red k

/-- Change of the multiplicity of `k` by an accepted call. -/
def delta (red : Bool) (k : List Lit) (unsat : Bool) : Op → Int
  | .add c | .step (.addClause c) =>
    if (copyCanonical c).1 = k ∧ red = false ∧ unsat = false then 1 else 0
  | .step (.atClause r c _) => if (copyCanonical c).1 = k ∧ red = r then 1 else 0
  | .step (.deleteClause c p) => if (copyCanonical c).1 = k ∧ red = decide (p = .redundant) then -1 else 0
  | _ => 0

theorem AddEff.wt {c s s'} (h : AddEff c s s') (red : Bool) {k : List Lit} (hk : 2 ≤ k.length)
    (hks : SSorted k) (hkt : ∀ l ∈ k, l.neg ∉ k) :
    wt red k (ents s'.buffer s'.clauses) = wt red k (ents s.buffer s.clauses) +
      (if (copyCanonical c).1 = k ∧ red = false ∧ s.unsat = false then 1 else 0) := by
  cases h with
  | skipped hu e => rw [e, if_neg (by rw [hu]; simp)]; simp
  | taut s1 hu ht hq hb =>
    rw [if_neg]
    · have := hb.same.wt (red := red) (k := k)
      have h2 := hq.toSame.wt (red := red) (k := k)
      simp only at this
      rw [this, h2]; simp
    · rintro ⟨rfl, -⟩
      obtain ⟨l, h1, h2⟩ := (canonical_taut c).1 ht
      exact hkt l (mem_canonical.2 h1) (mem_canonical.2 h2)
  | new s0 s1 id hu ht hq hst hq1 =>
    rw [hq1.toSame.wt, hst.wt red hk, hq.toSame.wt, hu]; simp
  | irred s0 s1 s2 id hu ht hq hst hq1 hb =>
    have := hb.same.wt (red := red) (k := k)
    simp only at this
    rw [this, hq1.toSame.wt, hst.wt red hk, hq.toSame.wt, hu]; simp
  | dup s0 s1 s2 id hu ht hq hst hq1 hb =>
    have := hb.same.wt (red := red) (k := k)
    simp only at this
    rw [this, hq1.toSame.wt, hst.wt red hk, hq.toSame.wt, hu]; simp

theorem UnitsEff.wt {env ls s s'} (h : UnitsEff env ls s s') (red : Bool) {k : List Lit} (hk : 2 ≤ k.length) :
    wt red k (ents s'.buffer s'.clauses) = wt red k (ents s.buffer s.clauses) := by
  induction h with
  | nil => rfl
  | cons l ls s s0 s1 s2 s' id res ids hq hr htr hst hq2 tail ih =>
    rw [ih, hq2.toSame.wt, hst.wt red hk, hq.toSame.wt, if_neg]
    · simp
    · rintro ⟨rfl, -⟩; simp at hk

theorem StepEff.wt {env st s s'} (h : StepEff env st s s') (red : Bool) {k : List Lit} (hk : 2 ≤ k.length)
    (hks : SSorted k) (hkt : ∀ l ∈ k, l.neg ∉ k) :
    wt red k (ents s'.buffer s'.clauses) = wt red k (ents s.buffer s.clauses) +
      delta red k s.unsat (.step st) := by
  unfold StepEff at h
  split at h
  · exact h.wt red hk hks hkt
  · obtain ⟨s0, s1, s2, id, res, ids, hq, hr, -, hst, hs2, hq2⟩ := h.run
    have h2 : ents s2.buffer s2.clauses = ents s1.buffer s1.clauses := by rw [hs2]; split <;> rfl
    rw [hq2.toSame.wt, h2, hst.wt red hk, hq.toSame.wt]; rfl
  · rw [h.wt red hk]; simp [delta]
  · obtain ⟨id, r, s1, o, hd, hw, hu, hsat, hcf, -, htr, -, -, -, -, -, -, hq⟩ := h.run
    rw [hq.toSame.wt, hd.wt]
    unfold delta
    simp only
    split <;> omega
  · have e0 : ∀ v, delta red k s.unsat (.step (.deleteVar v)) = 0 := fun _ => rfl
    rw [e0]
    cases h with
    | free _ _ hq => rw [hq.toSame.wt]; simp
    | unit id b s1 _ _ hq hq' =>
      have h1 := hq.toSame.wt (red := red) (k := k)
      have h2 := hq'.toSame.wt (red := red) (k := k)
      simp only at h2
      rw [h2, h1]; simp
  · rw [h.1.toSame.wt]; simp [delta]
  · obtain ⟨s0, hq, hq'⟩ := h
    have h1 := hq.toSame.wt (red := red) (k := k)
    have h2 := hq'.toSame.wt (red := red) (k := k)
    simp only at h2
    rw [h2, h1]; simp [delta]
  · obtain ⟨ids, hq, -⟩ := h.run
    rw [hq.toSame.wt]; simp [delta]
  · obtain ⟨o, hq, -⟩ := h
    rw [hq.toSame.wt]
    unfold delta
    split <;> simp_all

theorem OpEff.wt {env op s s'} (hp : Pre s) (h : OpEff env op s s') (red : Bool) {k : List Lit} (hk : 2 ≤ k.length)
    (hks : SSorted k) (hkt : ∀ l ∈ k, l.neg ∉ k) :
    wt red k (ents s'.buffer s'.clauses) = wt red k (ents s.buffer s.clauses) + delta red k s.unsat op := by
  cases op with
  | add c => exact AddEff.wt h red hk hks hkt
  | step st =>
    have := StepEff.wt h red hk hks hkt
    exact this

theorem AddEff.unsat_mono {c s s'} (h : AddEff c s s') (hu : s.unsat = true) : s'.unsat = true := by
  cases h with
  | skipped _ e => rw [e]; exact hu
  | taut s1 hu' => rw [hu] at hu'; simp at hu'
  | new s0 s1 id hu' => rw [hu] at hu'; simp at hu'
  | irred s0 s1 s2 id hu' => rw [hu] at hu'; simp at hu'
  | dup s0 s1 s2 id hu' => rw [hu] at hu'; simp at hu'

theorem UnitsEff.unsat_mono {env ls s s'} (h : UnitsEff env ls s s') (hu : s.unsat = true) : s'.unsat = true := by
  induction h with
  | nil => exact hu
  | cons l ls s s0 s1 s2 s' id res ids hq hr htr hst hq2 tail ih =>
    apply ih
    rw [hq2.unsat]
    cases hx : s1.unsat with
    | true => rfl
    | false => have := hst.unsat_mono hx; rw [hq.unsat, hu] at this; simp at this

/-- A contradiction is never forgotten. -/
theorem OpEff.unsat_mono {env op s s'} (h : OpEff env op s s') (hu : s.unsat = true) : s'.unsat = true := by
  cases op with
  | add c => exact AddEff.unsat_mono h hu
  | step st =>
    have h : StepEff env st { s with step := s.step + 1 } s' := h
    have hu : ({ s with step := s.step + 1 } : St).unsat = true := hu
    generalize ({ s with step := s.step + 1 } : St) = s at h hu
    unfold StepEff at h
    split at h
    · exact h.unsat_mono hu
    · obtain ⟨s0, s1, s2, id, res, ids, hq, hr, -, hst, hs2, hq2⟩ := h.run
      have h2 : s2.unsat = s1.unsat := by rw [hs2]; split <;> rfl
      rw [hq2.unsat, h2]
      cases hx : s1.unsat with
      | true => rfl
      | false => have := hst.unsat_mono hx; rw [hq.unsat, hu] at this; simp at this
    · exact h.unsat_mono hu
    · obtain ⟨id, r, s1, o, hd, hw, _, hsat, hcf, -, htr, -, -, -, -, -, -, hq⟩ := h.run
      rw [hq.unsat, hsat]; exact hu
    · cases h with
      | free _ _ hq => rw [hq.unsat]; exact hu
      | unit id b s1 _ _ hq hq' => rw [hq'.unsat]; show s1.unsat = true; rw [hq.unsat]; exact hu
    · rw [h.1.unsat]; exact hu
    · obtain ⟨s0, hq, hq'⟩ := h
      rw [hq'.unsat]; show s0.unsat = true; rw [hq.unsat]; exact hu
    · obtain ⟨ids, hq, -⟩ := h.run
      rw [hq.unsat]; exact hu
    · obtain ⟨o, hq, -⟩ := h
      rw [hq.unsat]; exact hu

theorem unsat_execs {env ops} : ∀ {F s s'}, Ran env F s → execs env ops s = .ok () s' → s.unsat = true →
    s'.unsat = true := by
  induction ops with
  | nil =>
    intro F s s' _ he hu
    have he : (EStateM.Result.ok () s : EStateM.Result Err St Unit) = .ok () s' := he
    simp only [EStateM.Result.ok.injEq, true_and] at he
    exact he ▸ hu
  | cons op ops ih =>
    intro F s s' hr he hu
    obtain ⟨s1, h1, h2⟩ := execs_ok he
    exact ih (hr.accept op h1) h2 ((op_ok hr.core.pre h1).unsat_mono hu)

theorem wt_execs {env ops} {red : Bool} {k : List Lit} (hk : 2 ≤ k.length)
    (hks : SSorted k) (hkt : ∀ l ∈ k, l.neg ∉ k) : ∀ {F s s'}, Ran env F s → execs env ops s = .ok () s' →
    s'.unsat = false →
    wt red k (ents s'.buffer s'.clauses) = wt red k (ents s.buffer s.clauses) +
      (ops.map (delta red k false)).sum := by
  induction ops with
  | nil =>
    intro F s s' _ he hu
    have he : (EStateM.Result.ok () s : EStateM.Result Err St Unit) = .ok () s' := he
    simp only [EStateM.Result.ok.injEq, true_and] at he
    rw [he]; simp
  | cons op ops ih =>
    intro F s s' hr he hu
    obtain ⟨s1, h1, h2⟩ := execs_ok he
    have hr1 := hr.accept op h1
    rw [ih hr1 h2 hu, OpEff.wt hr.core.pre (op_ok hr.core.pre h1) red hk hks hkt]
    have : s.unsat = false := by
      cases hx : s.unsat with
      | false => rfl
      | true =>
        have := unsat_execs hr he hx
        rw [hu] at this; simp at this
    rw [this, List.map_cons, List.sum_cons]
    omega

end Varisat.Checker
