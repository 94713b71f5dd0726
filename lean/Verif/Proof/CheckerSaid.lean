import Verif.Proof.CheckerOut
/-! Which calls of the checker announce input clauses and models. -/
namespace Varisat.Checker

theorem Quiet.out0 {s s' : St} (h : Quiet s [] s') : s'.out = s.out := by rw [h.out, List.append_nil]

/-- `o` has input clauses only for the clauses `C`. -/
def AddsOf (C : List (List Lit)) (o : List CheckedStep) : Prop :=
  ∀ id c, .addClause id c ∈ o → ∃ d ∈ C, c = (copyCanonical d).1

/-- Also, it has no model. -/
def Adds (C : List (List Lit)) (o : List CheckedStep) : Prop := AddsOf C o ∧ ∀ a, CheckedStep.model a ∉ o

/-- What was announced between two states. -/
def Said (C : List (List Lit)) (M : Prop) (s s' : St) : Prop :=
  ∃ o, s'.out = s.out ++ o ∧ AddsOf C o ∧ (M ↔ ∃ a, .model a ∈ o)

theorem Said.of {C : List (List Lit)} {s s' : St} {o : List CheckedStep} (h : s'.out = s.out ++ o) (ho : Adds C o) : Said C False s s' :=
  ⟨o, h, ho.1, ⟨False.elim, fun ⟨a, k⟩ => ho.2 a k⟩⟩

theorem Said.trans {C D : List (List Lit)} {M N : Prop} {a b c : St} (h : Said C M a b) (k : Said D N b c) : Said (C ++ D) (M ∨ N) a c := by
  obtain ⟨o, h1, h2, h3⟩ := h
  obtain ⟨q, k1, k2, k3⟩ := k
  refine ⟨o ++ q, by rw [k1, h1, List.append_assoc], fun id c hm => ?_, fun hm => ?_, fun hm => ?_⟩
  · rcases List.mem_append.1 hm with hm | hm
    · obtain ⟨d, x, y⟩ := h2 id c hm; exact ⟨d, by simp [x], y⟩
    · obtain ⟨d, x, y⟩ := k2 id c hm; exact ⟨d, by simp [x], y⟩
  · rcases hm with hm | hm
    · obtain ⟨x, y⟩ := h3.1 hm; exact ⟨x, List.mem_append_left _ y⟩
    · obtain ⟨x, y⟩ := k3.1 hm; exact ⟨x, List.mem_append_right _ y⟩
  · obtain ⟨a, hm⟩ := hm
    rcases List.mem_append.1 hm with hm | hm
    · exact .inl (h3.2 ⟨a, hm⟩)
    · exact .inr (k3.2 ⟨a, hm⟩)

theorem UnitsEff.said {env ls s s'} (h : UnitsEff env ls s s') : Said [] False s s' := by
  induction h with
  | nil => exact .of (o := []) (by simp) (by simp [Adds, AddsOf])
  | cons l ls s s0 s1 s2 s' id res ids hq hr htr hst hq2 tail ih =>
    have k : Said [] False s s2 := .of (by rw [hq2.out, hst.out, hq.out0]) (by cases res <;> simp [Adds, AddsOf])
    have := k.trans ih
    simpa using this

theorem AddEff.said {c s s'} (h : AddEff c s s') : Said [c] False s s' := by
  cases h with
  | skipped _ e => exact .of (o := []) (by rw [e]; simp) (by simp [Adds, AddsOf])
  | taut s1 _ _ hq hb => exact .of (hb.out.trans hq.out) (by simp [Adds, AddsOf])
  | new s0 s1 id _ _ hq hst hq1 =>
    exact .of (by rw [hq1.out, hst.out, hq.out0]) (by simp [Adds, AddsOf])
  | irred s0 s1 s2 id _ _ hq hst hq1 hb =>
    exact .of (by rw [hb.out, hq1.out, hst.out, hq.out0]) (by simp [Adds, AddsOf])
  | dup s0 s1 s2 id _ _ hq hst hq1 hb =>
    exact .of (by rw [hb.out, hq1.out, hst.out, hq.out0]) (by simp [Adds, AddsOf])

theorem StepEff.said {env s s' st} (he : StepEff env st s s') : Said (Op.added (.step st)) (∃ a, st = .model a) s s' := by
  have key : Said (Op.added (.step st)) False s s' → (∀ a, st ≠ .model a) → Said (Op.added (.step st)) (∃ a, st = .model a) s s' := by
    rintro ⟨o, h1, h2, h3⟩ hn
    exact ⟨o, h1, h2, fun ⟨a, h⟩ => absurd h (hn a), fun h => (h3.2 h).elim⟩
  unfold StepEff at he
  split at he
  · exact key he.said (by simp)
  · obtain ⟨s0, s1, s2, id, res, ids, hq, hr, htr, hst, hs2, hq2⟩ := he.run
    have hout : s2.out = s0.out := by rw [hs2, ← hst.out]; split <;> rfl
    refine key (.of (by rw [hq2.out, hout, hq.out0]) ?_) (by simp)
    cases res <;> simp [Adds, AddsOf]
  · exact key he.said (by simp)
  · obtain ⟨id, r, s1, o, hd, hw, hu, hsat, hcf, hni, -, has, hout, hpid, hpl, hcc, ho, hq⟩ := he.run
    refine key (.of (by rw [hq.out, hout]) ?_) (by simp)
    split at ho <;> (try subst ho) <;> simp [Adds, AddsOf]
    · exact absurd ho (by simp)
    · obtain ⟨l, hl, sid, hsid, rfl⟩ := ho; simp
    · obtain ⟨sid, hsid, rfl⟩ := ho; simp
  · refine key ?_ (by simp)
    cases he with
    | free _ _ hq => exact .of hq.out (by simp [Adds, AddsOf])
    | unit id b s1 _ hu hq hq' =>
      exact .of (by rw [hq'.out, List.append_nil]; exact hq.out) (by simp [Adds, AddsOf])
  · exact ⟨_, he.1.out, by simp [AddsOf], fun _ => ⟨_, List.mem_singleton_self _⟩, fun _ => ⟨_, rfl⟩⟩
  · obtain ⟨s0, hq, hq'⟩ := he
    exact key (.of (o := [_]) (by rw [hq'.out]; show s0.out ++ _ = _; rw [hq.out0]) (by simp [Adds, AddsOf])) (by simp)
  · obtain ⟨ids, hq, hr⟩ := he.run
    exact key (.of hq.out (by simp [Adds, AddsOf])) (by simp)
  · rename_i n1 n2 n3 n4 n5 n6 n7 n8
    obtain ⟨o, hq, ho⟩ := he
    refine key (.of hq.out ?_) (fun a => by rintro rfl; simp_all)
    rcases ho with rfl | ⟨v, u, rfl⟩ <;> simp [Adds, AddsOf]

theorem OpEff.said {env s s' op} (h : OpEff env op s s') : Said op.added (∃ a, op = .step (.model a)) s s' := by
  cases op with
  | add c =>
    obtain ⟨o, h1, h2, h3⟩ := AddEff.said h
    exact ⟨o, h1, h2, (fun ⟨a, h⟩ => by cases h), fun h => (h3.2 h).elim⟩
  | step st =>
    obtain ⟨o, h1, h2, h3⟩ := StepEff.said (show StepEff env st { s with step := s.step + 1 } s' from h)
    exact ⟨o, h1, h2, fun ⟨a, h⟩ => h3.1 ⟨a, by injection h⟩, fun h => by obtain ⟨a, k⟩ := h3.2 h; exact ⟨a, by rw [k]⟩⟩

theorem said_execs {env ops} : ∀ {F s s'}, Ran env F s → execs env ops s = .ok () s' →
    Said (added ops) (∃ a, .step (.model a) ∈ ops) s s' := by
  induction ops with
  | nil =>
    intro F s s' _ he
    have he : (EStateM.Result.ok () s : EStateM.Result Err St Unit) = .ok () s' := he
    simp only [EStateM.Result.ok.injEq, true_and] at he
    subst he
    exact ⟨[], by simp, by simp [AddsOf], by simp⟩
  | cons op ops ih =>
    intro F s s' hr he
    obtain ⟨s1, h1, h2⟩ := execs_ok he
    obtain ⟨o, k1, k2, k3⟩ := ((op_ok hr.core.pre h1).said).trans (ih (hr.accept op h1) h2)
    refine ⟨o, k1, k2, fun ⟨a, h⟩ => k3.1 ?_, fun h => ?_⟩
    · rcases List.mem_cons.1 h with h | h
      · exact .inl ⟨a, h.symm⟩
      · exact .inr ⟨a, h⟩
    · rcases k3.2 h with ⟨a, h⟩ | ⟨a, h⟩
      · exact ⟨a, by rw [h]; simp⟩
      · exact ⟨a, List.mem_cons_of_mem _ h⟩

/-- `process_unit_conflicts` announces neither. -/
theorem said_conflicts {env : Env} {s s' : St} (h : processUnitConflicts env s = .ok () s') : Said [] False s s' := by
  have h : (match s.unitConflict with
    | some (a, b) => emit env (.atClause s.nextId false [] [a, b])
    | none => pure ()) s = .ok () s' := h
  cases hu : s.unitConflict with
  | none =>
    rw [hu] at h
    cases h
    exact .of (o := []) (by simp) (by simp [Adds, AddsOf])
  | some ab =>
    rw [hu] at h
    have h : emit env (.atClause s.nextId false [] [ab.1, ab.2]) s = .ok () s' := h
    unfold emit at h
    simp only at h
    refine .of (o := [.atClause s.nextId false [] [ab.1, ab.2]]) ?_ (by simp [Adds, AddsOf])
    repeat' split at h
    all_goals first | (cases h; done) | (cases h; rfl)

end Varisat.Checker
