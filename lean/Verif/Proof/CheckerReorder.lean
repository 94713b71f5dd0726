import Verif.Proof.CheckerAccept3
/-!
# Giving the clauses to the checker first

The clauses added before the first call of `solve` are not part of a proof file; a reader of the file is
given all of them before the first step. Nothing the solver does before that call depends on the order.
-/
namespace Varisat.Checker

/-- Steps before the first call of `solve`, other than the clauses. -/
def Prep : ProofStep → Prop
  | .userVarName _ _ | .solverVarName _ _ | .changeSamplingMode _ _ | .assumptions _ => True
  | .deleteClause _ .satisfied => True
  | _ => False

/-- The clauses among some steps. -/
def addsOf : List ProofStep → List (List Lit)
  | [] => []
  | .addClause c :: L => c :: addsOf L
  | _ :: L => addsOf L

/-- The steps that are not clauses. -/
def restOf : List ProofStep → List ProofStep
  | [] => []
  | .addClause _ :: L => restOf L
  | st :: L => st :: restOf L

/-- Steps accepted one after the other. -/
def View.AccAll (t : Bool) : View → List ProofStep → Prop
  | _, [] => _root_.True
  | V, st :: L => (V.Acc st ∧ (t = true → V.Tr st)) ∧ View.AccAll t (V.step st) L

theorem View.AccAll.append {t : Bool} {V : View} : ∀ {L M : List ProofStep}, V.AccAll t L → (L.foldl View.step V).AccAll t M → V.AccAll t (L ++ M)
  | [], _, _, h => h
  | _ :: _, _, h, h' => ⟨h.1, View.AccAll.append h.2 h'⟩

theorem View.AccAll.left {t : Bool} {V : View} : ∀ {L M : List ProofStep}, V.AccAll t (L ++ M) → V.AccAll t L ∧ (L.foldl View.step V).AccAll t M
  | [], _, h => ⟨trivial, h⟩
  | _ :: _, _, h => ⟨⟨h.1, h.2.left.1⟩, h.2.left.2⟩

theorem View.AccAll.weaken {t : Bool} {V : View} : ∀ {L : List ProofStep}, V.AccAll true L → V.AccAll t L
  | [], h => h
  | _ :: _, h => ⟨⟨h.1.1, fun _ => h.1.2 rfl⟩, View.AccAll.weaken h.2⟩

theorem shown_iff {t : Bool} {L : List ProofStep} {V : View} : ShownT t L V ↔ View.AccAll t {} L ∧ V = L.foldl View.step {} := by
  constructor
  · intro h
    induction h with
    | nil => exact ⟨trivial, rfl⟩
    | snoc _ ha ht ih =>
      obtain ⟨h1, rfl⟩ := ih
      exact ⟨h1.append ⟨⟨ha, ht⟩, trivial⟩, by simp⟩
  · rintro ⟨h, rfl⟩
    generalize hn : L.length = n
    induction n generalizing L with
    | zero => obtain rfl := List.length_eq_zero_iff.1 hn; exact .nil
    | succ n ih =>
      obtain ⟨M, st, rfl⟩ : ∃ M st, L = M ++ [st] := ⟨L.dropLast, L.getLast (by rintro rfl; simp at hn), (List.dropLast_append_getLast _).symm⟩
      rw [List.foldl_append]
      exact .snoc (ih h.left.1 (by simpa using hn)) h.left.2.1.1 h.left.2.1.2

/-- Storing a clause changes three parts, and does not look at the others. -/
theorem View.store_parts (r : Bool) (k : List Lit) : ∃ (f : (Bool → List Lit → Nat) → (Bool → List Lit → Nat))
    (g : (Nat → Option Bool) → (Nat → Option Bool)) (h : (Nat → Option Bool) → Bool → Bool),
    (∀ V : View, V.store r k = { V with cnt := f V.cnt, unit := g V.unit, unsat := h V.unit V.unsat }) ∧
    (∀ c r' k', c r' k' ≤ f c r' k') ∧ (∀ u v b, u v = some b → g u v = some b) ∧
    ∀ (c : Bool → List Lit → Nat) (d : Bool → List Lit → Nat), (∀ r k, d r k ≤ c r k) → (fun r k => f c r k - d r k) = f (fun r k => c r k - d r k) := by
  match k with
  | [] => exact ⟨id, id, fun _ _ => true, fun V => rfl, fun _ _ _ => Nat.le_refl _, fun _ _ _ h => h, fun _ _ _ => rfl⟩
  | [l] =>
    refine ⟨id, fun u => match u l.var with
        | some _ => u
        | none => upd u l.var (some (!l.isNeg)),
      fun u o => match u l.var with
        | some b => if b = !l.isNeg then o else true
        | none => o, fun V => ?_, fun _ _ _ => Nat.le_refl _, fun u v b h => ?_, fun _ _ _ => rfl⟩
    · cases hu : V.unit l.var with
      | none => simp [View.store, hu]
      | some b =>
        simp only [View.store, hu]
        split <;> simp_all
    · cases hu : u l.var with
      | some _ => simp only [hu]; exact h
      | none =>
        simp only [hu]
        unfold upd
        split
        · rename_i hv; subst hv; rw [hu] at h; cases h
        · exact h
  | a :: b :: k =>
    refine ⟨fun f => fun r' c => f r' c + if a :: b :: k = c ∧ r' = r then 1 else 0, id, fun _ o => o, fun V => rfl,
      fun _ _ _ => Nat.le_add_right _ _, fun _ _ _ h => h, fun c d hd => ?_⟩
    funext r' k'
    have := hd r' k'
    show _ + _ - _ = _ - _ + _
    omega

/-- Adding a clause. -/
theorem View.add_parts (c : List Lit) (V0 : View) : ∃ (f : (Bool → List Lit → Nat) → (Bool → List Lit → Nat))
    (g : (Nat → Option Bool) → (Nat → Option Bool)) (h : (Nat → Option Bool) → Bool → Bool),
    (∀ V : View, V.unsat = V0.unsat → V.step (.addClause c) = { V with cnt := f V.cnt, unit := g V.unit, unsat := h V.unit V.unsat }) ∧
    (∀ c r' k', c r' k' ≤ f c r' k') ∧ (∀ u v b, u v = some b → g u v = some b) ∧
    ∀ (c : Bool → List Lit → Nat) (d : Bool → List Lit → Nat), (∀ r k, d r k ≤ c r k) → (fun r k => f c r k - d r k) = f (fun r k => c r k - d r k) := by
  by_cases hu : V0.unsat = true ∨ (copyCanonical c).2 = true
  · refine ⟨id, id, fun _ o => o, fun V hV => ?_, fun _ _ _ => Nat.le_refl _, fun _ _ _ h => h, fun _ _ _ => rfl⟩
    show (if _ then V else _) = _
    rw [if_pos (by rw [hV]; exact hu)]; rfl
  · obtain ⟨f, g, h, h1, h2⟩ := View.store_parts false (copyCanonical c).1
    refine ⟨f, g, h, fun V hV => ?_, h2⟩
    rw [← h1]
    show (if _ then V else _) = _
    rw [if_neg (by rw [hV]; exact hu)]

/-- A clause can be added before a step that comes before the first call of `solve`. -/
theorem View.prep_comm {V : View} {st : ProofStep} (hp : Prep st) (ha : V.Acc st) (c : List Lit) :
    (V.step (.addClause c)).Acc st ∧ (V.step (.addClause c)).step st = (V.step st).step (.addClause c) := by
  obtain ⟨f, g, h, h1, h2, h3, h4⟩ := View.add_parts c V
  cases st with
  | userVarName w u =>
    cases u with
    | none =>
      have hu : (V.user w).isSome := ha
      obtain ⟨u, hu⟩ := Option.isSome_iff_exists.1 hu
      rw [h1 V rfl]
      refine ⟨ha, ?_⟩
      rw [h1 _ (by simp [View.step, hu])]
      simp [View.step, hu]
    | some u =>
      rw [h1 V rfl]
      refine ⟨ha, ?_⟩
      exact (h1 (V.step (.userVarName w (some u))) rfl).symm
  | solverVarName w u =>
    rw [h1 V rfl]
    exact ⟨ha, (h1 (V.step (.solverVarName w u)) rfl).symm⟩
  | changeSamplingMode w u =>
    rw [h1 V rfl]
    exact ⟨ha, (h1 (V.step (.changeSamplingMode w u)) rfl).symm⟩
  | assumptions a =>
    rw [h1 V rfl]
    exact ⟨ha, (h1 (V.step (.assumptions a)) rfl).symm⟩
  | deleteClause d p =>
    cases p with
    | satisfied =>
      obtain ⟨a1, a2, a3, ⟨l, hl, a4⟩, a5⟩ := ha
      rw [h1 V rfl]
      refine ⟨⟨a1, a2, Nat.lt_of_lt_of_le a3 (h2 _ _ _), ⟨l, hl, h3 _ _ _ a4⟩, a5⟩, ?_⟩
      refine Eq.trans ?_ (h1 (V.step (.deleteClause d .satisfied)) rfl).symm
      simp only [View.step]
      congr 1
      refine h4 V.cnt (fun r k => if (copyCanonical d).1 = k ∧ r = decide (DeleteProof.satisfied = .redundant) then 1 else 0) (fun r k => ?_)
      split
      · rename_i hh
        obtain ⟨rfl, rfl⟩ := hh
        exact a3
      · exact Nat.zero_le _
    | redundant => exact absurd hp (by simp [Prep])
    | simplified => exact absurd hp (by simp [Prep])
  | _ => exact absurd hp (by simp [Prep])

theorem View.prep_comm_all {st : ProofStep} (hp : Prep st) : ∀ (C : List (List Lit)) {V : View}, V.Acc st →
    ((C.map ProofStep.addClause).foldl View.step V).Acc st ∧
    ((C.map ProofStep.addClause).foldl View.step V).step st = (C.map ProofStep.addClause).foldl View.step (V.step st)
  | [], _, ha => ⟨ha, rfl⟩
  | c :: C, V, ha => by
    obtain ⟨h1, h2⟩ := View.prep_comm hp ha c
    obtain ⟨h3, h4⟩ := View.prep_comm_all hp C h1
    refine ⟨h3, ?_⟩
    simp only [List.map_cons, List.foldl_cons]
    rw [h4, h2]

/-- The clauses first. -/
theorem View.AccAll.reorder {t : Bool} : ∀ {L : List ProofStep} {V : View}, (∀ st ∈ L, Prep st ∨ ∃ c, st = .addClause c) → V.AccAll t L →
    (((addsOf L).map ProofStep.addClause).foldl View.step V).AccAll t (restOf L) ∧
    (restOf L).foldl View.step (((addsOf L).map ProofStep.addClause).foldl View.step V) = L.foldl View.step V
  | [], _, _, _ => ⟨trivial, rfl⟩
  | st :: L, V, hp, ha => by
    have hL : ∀ st ∈ L, Prep st ∨ ∃ c, st = .addClause c := fun x hx => hp x (by simp [hx])
    by_cases hc : ∃ c, st = .addClause c
    · obtain ⟨c, rfl⟩ := hc
      exact View.AccAll.reorder (L := L) hL ha.2
    · have hst : Prep st := (hp st (by simp)).resolve_right hc
      have e1 : addsOf (st :: L) = addsOf L := by
        cases st <;> first | rfl | exact absurd ⟨_, rfl⟩ hc
      have e2 : restOf (st :: L) = st :: restOf L := by
        cases st <;> first | rfl | exact absurd ⟨_, rfl⟩ hc
      rw [e1, e2]
      obtain ⟨h1, h2⟩ := View.prep_comm_all hst (addsOf L) ha.1.1
      obtain ⟨h3, h4⟩ := View.AccAll.reorder hL ha.2
      exact ⟨⟨⟨h1, fun _ => by cases st <;> first | trivial | exact absurd hst (by simp [Prep])⟩, by rw [h2]; exact h3⟩, by rw [List.foldl_cons, h2]; exact h4⟩

theorem View.step_add_mode (V : View) (c : List Lit) : (V.step (.addClause c)).mode = V.mode := by
  obtain ⟨f, g, h, h1, _⟩ := View.add_parts c V
  rw [h1 V rfl]

theorem View.AccAll.adds {t : Bool} : ∀ (C : List (List Lit)) {V : View}, (∀ v, V.mode v = .sample) →
    (t = true → ∀ c ∈ C, ∀ l ∈ c, l.neg ∉ c) → V.AccAll t (C.map ProofStep.addClause)
  | [], _, _, _ => trivial
  | c :: C, V, h, ht => ⟨⟨.inr (.inr fun l _ => h l.var), fun he => .inr (.inl (by
      cases hc : (copyCanonical c).2 with
      | false => rfl
      | true =>
        obtain ⟨l, h1, h2⟩ := (canonical_taut c).1 hc
        exact absurd h2 (ht he c (by simp) l h1)))⟩,
    View.AccAll.adds C (by rw [View.step_add_mode]; exact h) (fun he c' hc' => ht he c' (by simp [hc']))⟩

/-- A proof stays acceptable if the clauses of its beginning are given first. (A transcript cannot show
tautological clauses with variables not seen before.) -/
theorem ShownT.reorder {t : Bool} {P Q : List ProofStep} {V : View} (h : ShownT t (P ++ Q) V) (hp : ∀ st ∈ P, Prep st ∨ ∃ c, st = .addClause c)
    (ht : t = true → ∀ c ∈ addsOf P, ∀ l ∈ c, l.neg ∉ c) :
    ShownT t ((addsOf P).map .addClause ++ (restOf P ++ Q)) V := by
  obtain ⟨h1, rfl⟩ := shown_iff.1 h
  obtain ⟨h2, h3⟩ := h1.left
  obtain ⟨h4, h5⟩ := h2.reorder hp
  rw [← h5] at h3
  refine shown_iff.2 ⟨(View.AccAll.adds _ (fun _ => rfl) ht).append (h4.append h3), ?_⟩
  rw [List.foldl_append, List.foldl_append, List.foldl_append, h5]

theorem Shown.weaken {t : Bool} {L : List ProofStep} {V : View} (h : Shown L V) : ShownT t L V :=
  shown_iff.2 ⟨(shown_iff.1 h).1.weaken, (shown_iff.1 h).2⟩

end Varisat.Checker
