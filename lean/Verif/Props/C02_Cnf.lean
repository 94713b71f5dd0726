import Verif.Model.Cnf
/-!
# C02: a `CnfFormula` is exactly the list of clauses put into it
-/
namespace Varisat.C02
open CnfFormula

/-! ## Specification: the obvious representation -/

/-- The clauses added by a history of calls, in order. -/
def clausesOf : List CnfOp → List (List Lit)
  | [] => []
  | .addClause c :: ops => c :: clausesOf ops
  | _ :: ops => clausesOf ops

/-- The least number that exceeds every variable of the clause. -/
def varsOf (c : List Lit) : Nat := (c.map (fun l => l.var + 1)).foldr max 0

/-- What the variable count has to be after a history of calls, starting from `n`. -/
def countAfter (n : Nat) : List CnfOp → Nat
  | [] => n
  | .addClause c :: ops => countAfter (max n (varsOf c)) ops
  | .newVar :: ops => countAfter (n + 1) ops
  | .setVarCount m :: ops => countAfter (max n m) ops

/-! ## Lemmas -/

/-- Abstraction relation: ranges are in bounds and slice to `cs`. -/
def Repr (f : CnfFormula) (cs : List (List Lit)) : Prop := f.iter = some cs

theorem slice_append {ls ext : List Lit} {r : Nat × Nat} {c : List Lit}
    (h : slice ls r = some c) : slice (ls ++ ext) r = some c := by
  unfold slice at *
  split at h
  · rename_i hr
    rw [if_pos ⟨hr.1, by simp; omega⟩]
    rw [← h, List.drop_append_of_le_length (by omega), List.take_append_of_le_length (by simp; omega)]
  · simp at h

theorem mapM_slice_append {ls ext : List Lit} : ∀ {rs : List (Nat × Nat)} {cs : List (List Lit)},
    rs.mapM (slice ls) = some cs → rs.mapM (slice (ls ++ ext)) = some cs
  | [], cs, h => by simpa using h
  | r :: rs, cs, h => by
    simp only [List.mapM_cons, Option.pure_def, Option.bind_eq_bind, Option.bind_eq_some_iff] at h ⊢
    obtain ⟨c, hc, cs', hcs', h⟩ := h
    exact ⟨c, slice_append hc, cs', mapM_slice_append hcs', h⟩

theorem bump_eq (vc : Nat) (c : List Lit) : bumpVarCount vc c = max vc (varsOf c) := by
  unfold bumpVarCount varsOf
  induction c generalizing vc with
  | nil => simp
  | cons l c ih => simp only [List.foldl_cons, List.map_cons, List.foldr_cons]; rw [ih]; omega

theorem addClause_varCount (f : CnfFormula) (c : List Lit) :
    (f.addClause c).varCount = max f.varCount (varsOf c) := by
  simp only [addClause]; rw [← bump_eq]; simp

theorem addClause_repr {f : CnfFormula} {cs : List (List Lit)} (h : Repr f cs) (c : List Lit) :
    Repr (f.addClause c) (cs ++ [c]) := by
  unfold Repr iter at *
  simp only [addClause, List.mapM_append]
  rw [mapM_slice_append h]
  simp [slice]

theorem step_repr {f : CnfFormula} {cs : List (List Lit)} (h : Repr f cs) (op : CnfOp) :
    Repr (f.step op) (cs ++ clausesOf [op]) := by
  cases op with
  | addClause c => exact addClause_repr h c
  | newVar => simpa [Repr, iter, step, newVar, clausesOf] using h
  | setVarCount n => simpa [Repr, iter, step, setVarCount, clausesOf] using h

theorem clausesOf_cons (op : CnfOp) (ops : List CnfOp) :
    clausesOf (op :: ops) = clausesOf [op] ++ clausesOf ops := by cases op <;> simp [clausesOf]

theorem run_repr (ops : List CnfOp) {f : CnfFormula} {cs : List (List Lit)} (h : Repr f cs) :
    Repr (ops.foldl step f) (cs ++ clausesOf ops) := by
  induction ops generalizing f cs with
  | nil => simpa [clausesOf] using h
  | cons op ops ih =>
    rw [clausesOf_cons, ← List.append_assoc]; exact ih (step_repr h op)

theorem run_count (ops : List CnfOp) (f : CnfFormula) :
    (ops.foldl step f).varCount = countAfter f.varCount ops := by
  induction ops generalizing f with
  | nil => rfl
  | cons op ops ih =>
    simp only [List.foldl_cons, ih]
    cases op <;> simp [step, countAfter, newVar, setVarCount, addClause_varCount]

theorem repr_len {f : CnfFormula} {cs : List (List Lit)} (h : Repr f cs) : f.len = cs.length := by
  unfold Repr iter at h; unfold len
  generalize f.clauseRanges = rs at *
  induction rs generalizing cs with
  | nil => simp at h; simp [h]
  | cons r rs ih =>
    simp only [List.mapM_cons, Option.pure_def, Option.bind_eq_bind, Option.bind_eq_some_iff] at h
    obtain ⟨c, hc, cs', hcs', h⟩ := h
    have := ih hcs'
    simp at h; subst h; simp [this]

theorem le_varsOf {c : List Lit} {l : Lit} (h : l ∈ c) : l.var < varsOf c := by
  unfold varsOf
  induction c with
  | nil => simp at h
  | cons x c ih =>
    simp only [List.map_cons, List.foldr_cons]
    rcases List.mem_cons.1 h with rfl | h
    · omega
    · have := ih h; omega

theorem countAfter_mono (ops : List CnfOp) {n m : Nat} (h : n ≤ m) :
    countAfter n ops ≤ countAfter m ops := by
  induction ops generalizing n m with
  | nil => exact h
  | cons op ops ih => cases op <;> simp only [countAfter] <;> apply ih <;> omega

theorem le_countAfter (ops : List CnfOp) (n : Nat) : n ≤ countAfter n ops := by
  induction ops generalizing n with
  | nil => exact Nat.le_refl _
  | cons op ops ih =>
    cases op <;> simp only [countAfter] <;> refine Nat.le_trans ?_ (ih _) <;> omega

/-! ## Property theorems -/

/-- After any history of calls iterating yields exactly the added clauses in order (and never
panics), `len` is their number, and the variable count is the specified one. -/
theorem history (ops : List CnfOp) :
    (ops.foldl step new).iter = some (clausesOf ops) ∧
    (ops.foldl step new).len = (clausesOf ops).length ∧
    (ops.foldl step new).isEmpty = (clausesOf ops).isEmpty ∧
    (ops.foldl step new).varCount = countAfter 0 ops := by
  have h : Repr (ops.foldl step new) (clausesOf ops) := by
    simpa using run_repr ops (f := new) (cs := []) (by simp [Repr, iter, new])
  have hl := repr_len h
  refine ⟨h, hl, ?_, run_count ops new⟩
  unfold CnfFormula.isEmpty len at *
  cases h1 : (List.foldl step new ops).clauseRanges <;> cases h2 : clausesOf ops <;>
    simp [h1, h2] at hl ⊢

/-- The variable count exceeds every variable used in any clause. -/
theorem vars_in_range (ops : List CnfOp) (c : List Lit) (hc : c ∈ clausesOf ops) (l : Lit)
    (hl : l ∈ c) : l.var < (ops.foldl step new).varCount := by
  rw [(history ops).2.2.2]
  generalize (0 : Nat) = n
  induction ops generalizing n with
  | nil => simp [clausesOf] at hc
  | cons op ops ih =>
    cases op with
    | addClause d =>
      simp only [clausesOf, List.mem_cons] at hc
      simp only [countAfter]
      rcases hc with rfl | hc
      · have h1 := le_varsOf hl
        have h2 := le_countAfter ops (max n (varsOf c))
        omega
      · exact ih hc _
    | newVar => exact ih hc _
    | setVarCount m => exact ih hc _

/-- Minimality: with clause additions only, the variable count is the least upper bound. -/
theorem var_count_least (cs : List (List Lit)) (n : Nat)
    (h : ∀ c ∈ cs, ∀ l ∈ c, l.var < n) : (ofClauses cs).varCount ≤ n := by
  have hk : ∀ (cs : List (List Lit)) (f : CnfFormula), f.varCount ≤ n →
      (∀ c ∈ cs, ∀ l ∈ c, l.var < n) → (cs.foldl addClause f).varCount ≤ n := by
    intro cs
    induction cs with
    | nil => intro f hf _; exact hf
    | cons c cs ih =>
      intro f hf h
      simp only [List.foldl_cons]
      apply ih
      · rw [addClause_varCount]
        have : varsOf c ≤ n := by
          have hc := h c (by simp)
          clear ih h hf
          unfold varsOf
          induction c with
          | nil => simp
          | cons x c ih2 =>
            simp only [List.map_cons, List.foldr_cons]
            have := hc x (by simp)
            have := ih2 (fun l hl => hc l (by simp [hl]))
            omega
        omega
      · exact fun c hc => h c (by simp [hc])
  exact hk cs new (by simp [new]) h

/-- `From` builds the formula with exactly the given clauses. -/
theorem from_iter (cs : List (List Lit)) : (ofClauses cs).iter = some cs := by
  have h := (history (cs.map .addClause)).1
  have e1 : (List.foldl step new (cs.map .addClause)) = ofClauses cs := by
    unfold ofClauses; rw [List.foldl_map]; rfl
  have e2 : clausesOf (cs.map .addClause) = cs := by
    clear h e1; induction cs with
    | nil => rfl
    | cons c cs ih => simp [clausesOf, ih]
  rwa [e1, e2] at h

theorem eq_go_spec (a b : List Lit) : ∀ (ra rb : List (Nat × Nat)) (ca cb : List (List Lit)),
    ra.length = rb.length → ra.mapM (slice a) = some ca → rb.mapM (slice b) = some cb →
    CnfFormula.eq.go a b (ra.zip rb) = some (decide (ca = cb))
  | [], [], ca, cb, _, ha, hb => by
    simp at ha hb; subst ha hb; simp [CnfFormula.eq.go]
  | [], _ :: _, _, _, h, _, _ => by simp at h
  | _ :: _, [], _, _, h, _, _ => by simp at h
  | x :: ra, y :: rb, ca, cb, h, ha, hb => by
    simp only [List.mapM_cons, Option.pure_def, Option.bind_eq_bind, Option.bind_eq_some_iff] at ha hb
    obtain ⟨c, hc, ca', hca', ha⟩ := ha
    obtain ⟨d, hd, cb', hcb', hb⟩ := hb
    simp only [Option.some.injEq] at ha hb; subst ha hb
    have ih := eq_go_spec a b ra rb ca' cb' (by simpa using h) hca' hcb'
    simp only [List.zip_cons_cons, CnfFormula.eq.go, hc, hd, ih, Option.bind_eq_bind,
      Option.bind_some, List.cons.injEq]
    by_cases hcd : c = d <;> simp [hcd]

/-- Equality holds exactly when variable counts and clause lists agree, however the two formulas
were built. -/
theorem equality (ops ops' : List CnfOp) :
    CnfFormula.eq (ops.foldl step new) (ops'.foldl step new) =
      some (decide (countAfter 0 ops = countAfter 0 ops' ∧ clausesOf ops = clausesOf ops')) := by
  obtain ⟨h1, h2, _, h3⟩ := history ops
  obtain ⟨g1, g2, _, g3⟩ := history ops'
  unfold CnfFormula.eq
  rw [h3, g3]
  unfold len at h2 g2
  rw [h2, g2]
  by_cases hv : countAfter 0 ops = countAfter 0 ops'
  · by_cases hl : (clausesOf ops).length = (clausesOf ops').length
    · rw [if_pos ⟨hv, hl⟩, eq_go_spec _ _ _ _ _ _ (by rw [h2, g2, hl]) h1 g1]
      simp [hv]
    · rw [if_neg (fun h => hl h.2)]
      have : clausesOf ops ≠ clausesOf ops' := fun h => hl (by rw [h])
      simp [this]
  · rw [if_neg (fun h => hv h.1)]; simp [hv]

/-- `new_var` returns a variable that no clause uses, that is different from every variable
handed out before, and reserves it. -/
theorem new_var_fresh (ops : List CnfOp) :
    let f := ops.foldl step new
    (∀ c ∈ clausesOf ops, ∀ l ∈ c, l.var ≠ f.newVar.2) ∧
    (∀ pre post, ops = pre ++ .newVar :: post → (pre.foldl step new).newVar.2 ≠ f.newVar.2) ∧
    f.newVar.2 < f.newVar.1.varCount := by
  refine ⟨fun c hc l hl => ?_, ?_, ?_⟩
  · have := vars_in_range ops c hc l hl
    simp only [newVar]; omega
  · intro pre post h
    have h1 := le_countAfter post (step (List.foldl step new pre) .newVar).varCount
    have h2 := run_count post (step (List.foldl step new pre) .newVar)
    rw [h, List.foldl_append, List.foldl_cons]
    simp only [step, newVar] at h1 h2 ⊢
    omega
  · simp [newVar]

/-- `new_var_iter(n)` yields the next `n` consecutive variables. -/
theorem new_var_iter_spec (f : CnfFormula) (n : Nat) :
    (f.newVarIter n).2 = (List.range n).map (f.varCount + ·) ∧
    (f.newVarIter n).1 = { f with varCount := f.varCount + n } := by
  induction n generalizing f with
  | zero => simp [newVarIter]
  | succ n ih =>
    simp only [newVarIter, ih, newVar]
    refine ⟨?_, by simp; omega⟩
    rw [List.range_succ_eq_map]
    simp [Function.comp_def]; intros; omega

/-- A concrete history, with an empty clause, duplicates and gaps in the variables. -/
example : clausesOf [.addClause [⟨0⟩, ⟨7⟩], .newVar, .addClause [], .setVarCount 2,
    .addClause [⟨2⟩, ⟨2⟩]] = [[⟨0⟩, ⟨7⟩], [], [⟨2⟩, ⟨2⟩]] := by decide
example : countAfter 0 [.addClause [⟨0⟩, ⟨7⟩], .newVar, .addClause [], .setVarCount 2] = 5 := by
  decide

end Varisat.C02
