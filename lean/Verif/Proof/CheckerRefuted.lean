import Verif.Proof.CheckerCount
import Verif.Proof.CheckerOut
import Verif.Proof.CheckerAccept3

/-!
# A checker that knows the formula to be unsatisfiable has told its processors so

`unsat` is set by storing the empty clause, which is then announced, or by storing a unit clause against the opposite
one.  The latter is announced by `process_unit_conflicts`, which `check_proof` runs at the end and the solver after every
`solve`.
-/
namespace Varisat.Checker

/-- The step announces the empty clause. -/
def CheckedStep.Empties : CheckedStep → Prop
  | .addClause _ lits => lits = []
  | .atClause _ _ lits _ => lits = []
  | _ => False

/-- An empty clause is among the announced steps. -/
def Refutes (out : List CheckedStep) : Prop := ∃ st ∈ out, st.Empties

/-- A formula known to be unsatisfiable: the two units in conflict are at hand or the empty clause was announced. -/
def Witnessed (s : St) : Prop := s.unsat = true → s.unitConflict.isSome = true ∨ Refutes s.out

theorem Refutes.append {a b : List CheckedStep} (h : Refutes a) : Refutes (a ++ b) := by
  obtain ⟨st, hs, he⟩ := h
  exact ⟨st, List.mem_append_left _ hs, he⟩

theorem Witnessed.of_same {s s' : St} (hw : Witnessed s) (h : Same s s') (ho : ∃ o, s'.out = s.out ++ o) :
    Witnessed s' := by
  intro hu
  rw [h.unsat] at hu
  obtain ⟨o, ho⟩ := ho
  rw [h.conflict, ho]
  exact (hw hu).imp_right (·.append)

theorem Witnessed.quiet {s s' : St} {o} (hw : Witnessed s) (h : Quiet s o s') : Witnessed s' :=
  hw.of_same h.toSame ⟨o, h.out⟩

theorem Witnessed.bump {s s' : St} (hw : Witnessed s) (h : Bump s s') : Witnessed s' := by
  intro hu
  have e1 : s'.unsat = s.unsat := h.same.unsat
  have e2 : s'.unitConflict = s.unitConflict := h.same.conflict
  rw [e1] at hu
  rw [e2, h.out]
  exact hw hu

/-- A stored clause, once a step with its literals is announced if it is new. -/
theorem Witnessed.stored {lits : List Lit} {red : Bool} {s s1 s2 : St} {id : Nat} {res : StoreResult} {o}
    (hw : Witnessed s) (hst : Stored lits red s s1 id res) (hu2 : s2.unsat = s1.unsat)
    (hc2 : s2.unitConflict = s1.unitConflict) (ho : s2.out = s1.out ++ o)
    (hn : res = .new → lits = [] → ∃ st ∈ o, st.Empties) : Witnessed s2 := by
  intro hu
  rw [hu2] at hu
  rw [hc2, ho, hst.out]
  cases hst.kind with
  | empty hl hp hus hs hc =>
    obtain ⟨st, h1, h2⟩ := hn rfl hl
    exact .inr ⟨st, List.mem_append_right _ h1, h2⟩
  | unitConflict l cid hl hv hp hus hs hc => left; rw [hc]; rfl
  | unitDup l cid hl hv hp hus hs hc => rw [hs] at hu; rw [hc]; exact (hw hu).imp_right (·.append)
  | unitNew l hl hv hp hus hs hc => rw [hs] at hu; rw [hc]; exact (hw hu).imp_right (·.append)
  | long id res hl he hus hs hc => rw [hs] at hu; rw [hc]; exact (hw hu).imp_right (·.append)

theorem AddEff.witnessed {c s s'} (h : AddEff c s s') (hw : Witnessed s) : Witnessed s' := by
  cases h with
  | skipped _ e => rw [e]; exact hw
  | taut s1 _ _ hq hb => exact (hw.quiet hq).bump hb
  | new s0 s1 id _ _ hq hst hq1 =>
    exact (hw.quiet hq).stored hst hq1.unsat hq1.conflict hq1.out fun _ hl => ⟨_, List.mem_singleton_self _, hl⟩
  | irred s0 s1 s2 id _ _ hq hst hq1 hb =>
    exact ((hw.quiet hq).stored hst hq1.unsat hq1.conflict hq1.out (fun h => by cases h)).bump hb
  | dup s0 s1 s2 id _ _ hq hst hq1 hb =>
    exact ((hw.quiet hq).stored hst hq1.unsat hq1.conflict hq1.out (fun h => by cases h)).bump hb

theorem UnitsEff.witnessed {env ls s s'} (h : UnitsEff env ls s s') : Witnessed s → Witnessed s' := by
  induction h with
  | nil => exact id
  | cons l ls s s0 s1 s2 s' id res ids hq hr htr hst hq2 tail ih =>
    intro hw
    exact ih ((hw.quiet hq).stored hst hq2.unsat hq2.conflict hq2.out (fun _ h => by cases h))

theorem OpEff.witnessed {env op s s'} (h : OpEff env op s s') (hw : Witnessed s) : Witnessed s' := by
  cases op with
  | add c => exact AddEff.witnessed h hw
  | step st =>
    have h : StepEff env st { s with step := s.step + 1 } s' := h
    have hw : Witnessed { s with step := s.step + 1 } := hw
    generalize ({ s with step := s.step + 1 } : St) = s at h hw
    unfold StepEff at h
    split at h
    · exact h.witnessed hw
    · obtain ⟨s0, s1, s2, id, res, ids, hq, hr, -, hst, hs2, hq2⟩ := h.run
      have h2 : s2.unsat = s1.unsat ∧ s2.unitConflict = s1.unitConflict ∧ s2.out = s1.out := by
        rw [hs2]; split <;> exact ⟨rfl, rfl, rfl⟩
      refine (hw.quiet hq).stored hst (hq2.unsat.trans h2.1) (hq2.conflict.trans h2.2.1)
        (hq2.out.trans (by rw [h2.2.2])) ?_
      rintro rfl hl
      exact ⟨_, List.mem_singleton_self _, hl⟩
    · exact h.witnessed hw
    · obtain ⟨id, r, s1, o, hd, hwf, _, hsat, hcf, -, htr, -, hout, -, -, -, -, hq⟩ := h.run
      have : Witnessed s1 := by
        intro hu
        rw [hsat] at hu
        rw [hcf, hout]
        exact hw hu
      exact this.quiet hq
    · cases h with
      | free _ _ hq => exact hw.quiet hq
      | unit id b s1 _ _ hq hq' =>
        have h1 : Witnessed s1 := hw.quiet hq
        exact Witnessed.quiet (s := { s1 with units := upd s1.units _ none }) h1 hq'
    · exact hw.quiet h.1
    · obtain ⟨s0, hq, hq'⟩ := h
      have h1 : Witnessed s0 := hw.quiet hq
      exact Witnessed.quiet (s := { s0 with assumptions := (copyCanonical _).1 }) h1 hq'
    · obtain ⟨ids, hq, -⟩ := h.run
      exact hw.quiet hq
    · obtain ⟨o, hq, -⟩ := h
      exact hw.quiet hq

theorem witnessed_execs {env ops} : ∀ {F s s'}, Ran env F s → execs env ops s = .ok () s' → Witnessed s →
    Witnessed s' := by
  induction ops with
  | nil =>
    intro F s s' _ he hu
    have he : (EStateM.Result.ok () s : EStateM.Result Err St Unit) = .ok () s' := he
    simp only [EStateM.Result.ok.injEq, true_and] at he
    exact he ▸ hu
  | cons op ops ih =>
    intro F s s' hr he hu
    obtain ⟨s1, h1, h2⟩ := execs_ok he
    exact ih (hr.accept op h1) h2 ((op_ok hr.core.pre h1).witnessed hu)

theorem Witnessed.init : Witnessed {} := fun h => by cases h

/-- `process_unit_conflicts` announces the empty clause if the formula is known to be unsatisfiable. -/
theorem processUnitConflicts_sees {env : Env} {K : St} {V : View} (ha : Accepting env) (h : Sees K V) (hw : Witnessed K) :
    ∃ K', processUnitConflicts env K = .ok () K' ∧ Sees K' V ∧ K'.hashBits = K.hashBits ∧ K'.ended = K.ended ∧ Witnessed K' ∧
      (V.unsat = true → Refutes K'.out) := by
  show ∃ K', EStateM.bind getSt (fun s => match s.unitConflict with
    | some (a, b) => emit env (.atClause s.nextId false [] [a, b])
    | none => pure ()) K = .ok () K' ∧ _
  unfold EStateM.bind
  show ∃ K', (match K.unitConflict with
    | some (a, b) => emit env (.atClause K.nextId false [] [a, b])
    | none => pure ()) K = .ok () K' ∧ _
  cases hu : K.unitConflict with
  | some ab =>
    obtain ⟨a, b⟩ := ab
    have hq : wp (emit env (.atClause K.nextId false [] [a, b])) (fun _ s' => Quiet K [.atClause K.nextId false [] [a, b]] s')
        (fun _ _ => True) K := wp_emit_quiet h.c.pre.wf (fun s' h _ => h) (fun _ _ _ => trivial)
    obtain ⟨_, K1, e, hK⟩ := wp_get_ok (emit_sees ha h (.atClause K.nextId false [] [a, b]) (fun _ => by simp [transcriptStep]))
    have hp := pres_emit env (.atClause K.nextId false [] [a, b]) K
    unfold wp at hq
    rw [e] at hp hq
    refine ⟨K1, e, hK, hp.bits, hp.ended, hw.quiet hq, fun _ => ?_⟩
    rw [hq.out]
    exact ⟨_, List.mem_append_right _ (List.mem_singleton_self _), rfl⟩
  | none =>
    refine ⟨K, rfl, h, rfl, rfl, hw, fun hV => ?_⟩
    rcases hw (h.c.unsat.trans hV) with h1 | h1
    · rw [hu] at h1; cases h1
    · exact h1

end Varisat.Checker
