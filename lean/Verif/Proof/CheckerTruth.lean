import Mathlib.Data.List.Induction
import Mathlib.Data.List.Forall2
import Verif.Proof.CheckerNaming
import Verif.Proof.CheckerRefuted
import Verif.Proof.CheckerSaid
import Verif.Props.C13_CheckerSound
/-! What the checker tells its processors about clauses, assumptions and results is right at the time it is told. -/
namespace Varisat.Checker

/-- The clause of a step about an input clause. -/
def CheckedStep.input : CheckedStep → Option (List Lit)
  | .addClause _ c | .duplicatedClause _ _ c | .tautologicalClause _ c => some c
  | _ => none

def CheckedStep.assume : CheckedStep → Option (List Lit)
  | .assumptions a => some a
  | _ => none

def inputs (o : List CheckedStep) : List (List Lit) := o.filterMap (·.input)

def assumedIn (o : List CheckedStep) : List Lit := o.foldl (fun a st => st.assume.getD a) []

theorem inputs_append (o p : List CheckedStep) : inputs (o ++ p) = inputs o ++ inputs p := List.filterMap_append ..

theorem assumedIn_append (o : List CheckedStep) (st : CheckedStep) : assumedIn (o ++ [st]) = st.assume.getD (assumedIn o) := by
  unfold assumedIn; rw [List.foldl_append]; rfl

theorem assumedIn_quiet {o p : List CheckedStep} (h : ∀ st ∈ p, st.assume = none) : assumedIn (o ++ p) = assumedIn o := by
  induction p generalizing o with
  | nil => rw [List.append_nil]
  | cons st p ih =>
    rw [List.append_cons, ih fun x hx => h x (List.mem_cons_of_mem _ hx), assumedIn_append, h st (List.mem_cons_self ..)]
    rfl

/-- What a step says about the steps before it. -/
def RightO (u : Bool) (pre : List CheckedStep) : CheckedStep → Prop
  | .atClause _ _ c _ => c = [] → Unsat (inputs pre)
  | .model m => u = true ∨ ∃ a, allHold a m ∧ cnfSat a (inputs pre) ∧ allHold a (assumedIn pre)
  | .failedAssumptions core _ => (∀ l ∈ core, l ∈ assumedIn pre) ∧ UnsatUnder (inputs pre) core
  | _ => True

def TruthO (u : Bool) (o : List CheckedStep) : Prop := ∀ pre st post, o = pre ++ st :: post → RightO u pre st

theorem RightO.mono {u v : Bool} (h : u = true → v = true) {pre st} (k : RightO u pre st) : RightO v pre st := by
  cases st <;> try exact k
  exact k.imp_left h

theorem TruthO.snoc {u o st} (h : TruthO u o) (k : RightO u o st) : TruthO u (o ++ [st]) := by
  intro pre x post e
  rcases List.eq_nil_or_concat post with rfl | ⟨q, y, rfl⟩
  · obtain ⟨rfl, e2⟩ := List.append_inj' e rfl
    cases e2; exact k
  · rw [List.concat_eq_append, ← List.cons_append, ← List.append_assoc] at e
    obtain ⟨e1, -⟩ := List.append_inj' e rfl
    exact h pre x q e1

theorem TruthO.mono {u v : Bool} (h : u = true → v = true) {o} (k : TruthO u o) : TruthO v o :=
  fun pre st post e => (k pre st post e).mono h

theorem TruthO.mute {u o p} (h : TruthO u o) (k : ∀ st ∈ p, ∀ pre, RightO u pre st) : TruthO u (o ++ p) := by
  induction p generalizing o with
  | nil => rwa [List.append_nil]
  | cons st p ih =>
    rw [List.append_cons]
    exact ih (h.snoc (k st (List.mem_cons_self ..) _)) fun x hx => k x (List.mem_cons_of_mem _ hx)

/-! ### From what was told to the transcript -/

namespace Naming
open Spec.Transcript

theorem Own.user {s : St} (h : Own s) {v u : Nat} (k : userFromProofVar s v = some u) : u = v := by
  unfold userFromProofVar at k
  split at k
  · split at k
    · rename_i x hx; cases k; exact h v u hx
    · split at k
      · cases k; rfl
      · cases k
  · cases k

theorem Own.lits {s : St} (h : Own s) : ∀ {c d : List Lit}, mapLits s c = some d → d = c
  | [], d, k => by cases k; rfl
  | l :: c, d, k => by
    unfold mapLits at k
    split at k
    · rename_i u us hu hus
      cases k
      rw [h.user hu, h.lits hus, Lit.mk'_var_neg]
    · cases k

theorem Own.model {s : St} (h : Own s) (a : List Lit) : ∀ l ∈ a.filterMap (fun l =>
    (userFromProofVar s l.var).map fun u => Lit.mk' u (!l.isNeg)), l ∈ a := by
  intro l hl
  obtain ⟨k, hk, e⟩ := List.mem_filterMap.1 hl
  cases hu : userFromProofVar s k.var with
  | none => rw [hu] at e; cases e
  | some u =>
    rw [hu, h.user hu] at e
    simp only [Option.map_some, Option.some.injEq, Lit.mk'_var_neg] at e
    rwa [← e]

/-- How a step of the transcript and the step told to processors are related. -/
inductive Same : CheckedStep → TranscriptStep → Prop
  | input {st c} : st.input = some c → st.assume = none → Same st (.addClause c)
  | unsat {i r ps} : Same (.atClause i r [] ps) .unsat
  | model {a m} : (∀ l ∈ m, l ∈ a) → Same (.model a) (.model m)
  | assume {a} : Same (.assumptions a) (.assume a)
  | failed {a ps} : Same (.failedAssumptions a ps) (.failedAssumptions a)
  | hide {v u w} : Same (.userVar v u) (.hideVar w)
  | observe {v u w} : Same (.userVar v u) (.observeInternalVar w)
  | witness {v u w} : Same (.userVar v u) (.witnessVar w)
  | sample {v u w} : Same (.userVar v u) (.sampleVar w)

theorem same {s : St} (ho : Own s) {st : CheckedStep} {t : TranscriptStep} (h : transcriptStep s st = some (some t)) : Same st t := by
  cases st with
  | userVar v u =>
    cases u with
    | none =>
      simp only [transcriptStep, Option.map_eq_some_iff, Option.some.injEq] at h
      obtain ⟨u, -, rfl⟩ := h
      exact .hide
    | some u =>
      simp only [transcriptStep, Option.some.injEq] at h
      split at h <;> split at h <;> cases h <;> constructor
  | addClause i c =>
    simp only [transcriptStep, Option.map_eq_some_iff, Option.some.injEq] at h
    obtain ⟨d, k, rfl⟩ := h
    exact .input (by rw [ho.lits k]; rfl) rfl
  | duplicatedClause i j c =>
    simp only [transcriptStep, Option.map_eq_some_iff, Option.some.injEq] at h
    obtain ⟨d, k, rfl⟩ := h
    exact .input (by rw [ho.lits k]; rfl) rfl
  | tautologicalClause i c =>
    simp only [transcriptStep, Option.map_eq_some_iff, Option.some.injEq] at h
    obtain ⟨d, k, rfl⟩ := h
    exact .input (by rw [ho.lits k]; rfl) rfl
  | atClause i r c ps =>
    simp only [transcriptStep, Option.some.injEq] at h
    split at h
    · rename_i hc
      cases h
      rw [List.isEmpty_iff] at hc
      subst hc
      exact .unsat
    · cases h
  | model a =>
    simp only [transcriptStep, Option.some.injEq] at h
    subst h
    exact .model (ho.model a)
  | assumptions a =>
    simp only [transcriptStep, Option.map_eq_some_iff, Option.some.injEq] at h
    obtain ⟨d, k, rfl⟩ := h
    rw [ho.lits k]
    exact .assume
  | failedAssumptions a ps =>
    simp only [transcriptStep, Option.map_eq_some_iff, Option.some.injEq] at h
    obtain ⟨d, k, rfl⟩ := h
    rw [ho.lits k]
    exact .failed
  | _ => simp [transcriptStep] at h

theorem silent {s : St} {st : CheckedStep} (h : transcriptStep s st = some none) : st.input = none ∧ st.assume = none := by
  cases st <;> first | exact ⟨rfl, rfl⟩ | simp [transcriptStep] at h

theorem clauses_snoc (ts : List TranscriptStep) (t : TranscriptStep) :
    clauses (ts ++ [t]) = clauses ts ++ (match t with | .addClause c => [c] | _ => []) := by
  unfold clauses
  rw [List.filterMap_append]
  cases t <;> rfl

theorem assumed_snoc (ts : List TranscriptStep) (t : TranscriptStep) :
    assumed (ts ++ [t]) = (match t with | .assume b => b | _ => assumed ts) := by
  unfold assumed
  rw [List.foldl_append]
  cases t <;> rfl

theorem Tells.same {o ts} (h : Tells o ts) : clauses ts = inputs o ∧ assumed ts = assumedIn o := by
  induction h with
  | nil => exact ⟨rfl, rfl⟩
  | @skip o ts st s h k ih =>
    obtain ⟨h1, h2⟩ := silent k
    rw [inputs_append, assumedIn_append, h2]
    simp only [inputs, List.filterMap_cons, h1, List.filterMap_nil, List.append_nil]
    exact ih
  | @step o ts st t s h ho k ih =>
    have := Naming.same ho k
    rw [clauses_snoc, assumed_snoc, inputs_append, assumedIn_append, ih.1]
    cases this with
    | input h1 h2 => rw [h2]; exact ⟨by simp [inputs, h1], ih.2⟩
    | _ => exact ⟨by simp [inputs, CheckedStep.input], by first | exact ih.2 | rfl⟩

/-- The transcript is right if what the processors were told is right. -/
theorem Tells.right {u o ts} (h : Tells o ts) (ht : TruthO u o) : ∀ pre t post, ts = pre ++ t :: post →
    Right pre t ∨ (u = true ∧ ∃ m, t = .model m) := by
  induction h with
  | nil => intro pre t post e; cases pre <;> cases e
  | @skip o ts st s h k ih => exact ih fun pre x post e => ht pre x (post ++ [st]) (by rw [e]; simp)
  | @step o ts st t s h ho k ih =>
    intro pre x post e
    rcases List.eq_nil_or_concat post with rfl | ⟨q, y, rfl⟩
    · obtain ⟨rfl, e2⟩ := List.append_inj' e rfl
      cases e2
      have hr := ht o st [] rfl
      obtain ⟨e1, e2⟩ := h.same
      cases Naming.same ho k with
      | unsat => exact .inl (by show Unsat _; rw [e1]; exact hr rfl)
      | model hm =>
        rcases hr with hr | ⟨a, h1, h2, h3⟩
        · exact .inr ⟨hr, _, rfl⟩
        · exact .inl ⟨a, fun l hl => h1 l (hm l hl), by rw [e1]; exact h2, by rw [e2]; exact h3⟩
      | failed => exact .inl (by unfold Right; rw [e1, e2]; exact hr)
      | _ => exact .inl trivial
    · rw [List.concat_eq_append, ← List.cons_append, ← List.append_assoc] at e
      obtain ⟨e1, -⟩ := List.append_inj' e rfl
      exact ih (fun pre x post e => ht pre x (post ++ [st]) (by rw [e]; simp)) pre x q e1

end Naming

/-! ### What was told is right -/

/-- A step that is not about an input clause or assumptions and says nothing about satisfiability. -/
def CheckedStep.Mute (st : CheckedStep) : Prop := st.input = none ∧ st.assume = none ∧ ∀ u pre, RightO u pre st

theorem unitsEff_mute {env ls s s'} (h : UnitsEff env ls s s') : ∃ o, s'.out = s.out ++ o ∧ (∀ st ∈ o, st.Mute) ∧ s'.assumptions = s.assumptions ∧
    (s.unsat = true → s'.unsat = true) := by
  induction h with
  | nil => exact ⟨[], by simp, by simp, rfl, id⟩
  | cons l ls s s0 s1 s2 s' id res ids hq hr htr hst hq2 tail ih =>
    obtain ⟨o, h1, h2, h3, h4⟩ := ih
    have hm : ∃ q, s2.out = s1.out ++ q ∧ ∀ st ∈ q, st.Mute := by
      refine ⟨_, hq2.out, ?_⟩
      cases res with
      | new =>
        intro st hm
        rw [List.mem_singleton] at hm
        subst hm
        exact ⟨rfl, rfl, fun u pre => by rintro ⟨⟩⟩
      | _ => intro st hm; cases hm
    obtain ⟨q, k1, k2⟩ := hm
    refine ⟨q ++ o, by rw [h1, k1, hst.out, hq.out0, List.append_assoc], ?_, by rw [h3, hq2.assumptions, hst.assumptions, hq.assumptions], ?_⟩
    · intro st hm
      rcases List.mem_append.1 hm with hm | hm
      · exact k2 st hm
      · exact h2 st hm
    · intro hu
      refine h4 ?_
      rw [hq2.unsat]
      rw [← hq.unsat] at hu
      cases hst.kind <;> simp_all

theorem stored_unsat {lits red s s' id res} (h : Stored lits red s s' id res) (hu : s.unsat = true) : s'.unsat = true := by
  cases h.kind <;> simp_all

theorem mute_assumed {o p : List CheckedStep} (h : ∀ st ∈ p, st.Mute) : inputs (o ++ p) = inputs o ∧ assumedIn (o ++ p) = assumedIn o := by
  refine ⟨?_, assumedIn_quiet fun st hst => (h st hst).2.1⟩
  rw [inputs_append]
  have : inputs p = [] := List.filterMap_eq_nil_iff.2 fun st hst => (h st hst).1
  rw [this, List.append_nil]

/-- Input clauses as they are told. -/
def canon (F : List (List Lit)) : List (List Lit) := F.map fun c => (copyCanonical c).1

theorem clauseSat_canon {a : Asg} {c : List Lit} : clauseSat a (copyCanonical c).1 ↔ clauseSat a c :=
  ⟨fun ⟨l, h, k⟩ => ⟨l, mem_canonical.1 h, k⟩, fun ⟨l, h, k⟩ => ⟨l, mem_canonical.2 h, k⟩⟩

theorem cnfSat_canon {a : Asg} {F : List (List Lit)} : cnfSat a (canon F) ↔ cnfSat a F := by
  unfold cnfSat canon
  simp only [List.forall_mem_map, clauseSat_canon]

/-- What the steps told so far say about the clauses `F` added. -/
structure Truth (F : List (List Lit)) (s : St) : Prop where
  pre : inputs s.out <+: canon F
  all : s.unsat = false → inputs s.out = canon F
  unsat : s.unsat = true → Unsat (inputs s.out)
  asm : assumedIn s.out = s.assumptions
  truth : TruthO s.unsat s.out

theorem Truth.models {F s} (h : Truth F s) {a : Asg} (k : cnfSat a (inputs s.out)) : cnfSat a F := by
  cases hu : s.unsat with
  | false => rw [h.all hu] at k; exact cnfSat_canon.1 k
  | true => exact absurd k (h.unsat hu a)

/-- A step that is told about clauses and assumptions that stay the same. -/
theorem Truth.more {F s s' o} (h : Truth F s) (hc : Core F s') (ho : s'.out = s.out ++ o) (hi : inputs o = []) (ha : assumedIn (s.out ++ o) = s'.assumptions)
    (hu : s.unsat = true → s'.unsat = true) (ht : TruthO s.unsat (s.out ++ o)) : Truth F s' := by
  have e : inputs s'.out = inputs s.out := by rw [ho, inputs_append, hi, List.append_nil]
  refine ⟨by rw [e]; exact h.pre, fun k => ?_, fun k => ?_, by rw [ho]; exact ha, by rw [ho]; exact ht.mono hu⟩
  · rw [e]
    refine h.all ?_
    cases hx : s.unsat with
    | false => rfl
    | true => rw [hu hx] at k; cases k
  · rw [e]
    exact fun a ka => hc.unsat k a (h.models ka)

theorem Truth.mute {F s s' o} (h : Truth F s) (hc : Core F s') (ho : s'.out = s.out ++ o) (hm : ∀ st ∈ o, st.Mute)
    (ha : s'.assumptions = s.assumptions) (hu : s.unsat = true → s'.unsat = true) : Truth F s' := by
  refine h.more hc ho (List.filterMap_eq_nil_iff.2 fun st hst => (hm st hst).1) ?_ hu (h.truth.mute fun st hst pre => (hm st hst).2.2 _ pre)
  rw [(mute_assumed hm).2, ha, h.asm]

/-- An input clause that is told. -/
theorem Truth.input {F s s' o c} (h : Truth F s) (hu : s.unsat = false) (hc : Core (F ++ [c]) s') (ho : s'.out = s.out ++ o)
    (hi : inputs o = [(copyCanonical c).1]) (hq : ∀ st ∈ o, st.assume = none ∧ ∀ u pre, RightO u pre st) (ha : s'.assumptions = s.assumptions) : Truth (F ++ [c]) s' := by
  have e : inputs s'.out = canon (F ++ [c]) := by
    rw [ho, inputs_append, hi, h.all hu]
    simp [canon]
  refine ⟨by rw [e]; exact List.prefix_rfl, fun _ => e, fun k => ?_, ?_, ?_⟩
  · rw [e]
    exact fun a ka => hc.unsat k a (cnfSat_canon.1 ka)
  · rw [ho, ha, ← h.asm]
    exact assumedIn_quiet fun st hst => (hq st hst).1
  · rw [ho]
    refine (h.truth.mono ?_).mute fun st hst pre => (hq st hst).2 _ pre
    rw [hu]; rintro ⟨⟩

theorem Truth.add {F s s' c} (h : Truth F s) (hc : Core (F ++ [c]) s') (he : AddEff c s s') : Truth (F ++ [c]) s' := by
  cases he with
  | skipped hu e =>
    rw [e]
    refine ⟨h.pre.trans ⟨canon [c], by simp [canon]⟩, (fun k => by rw [hu] at k; cases k), h.unsat, h.asm, h.truth⟩
  | taut s1 hu _ hq hb =>
    exact h.input hu hc (hb.out.trans hq.out) rfl (by simp [CheckedStep.assume, RightO]) (by rw [← hq.assumptions]; exact hb.same.assumptions)
  | new s0 s1 id hu _ hq hst hq1 =>
    exact h.input hu hc (by rw [hq1.out, hst.out, hq.out0]) rfl (by simp [CheckedStep.assume, RightO])
      (by rw [hq1.assumptions, hst.assumptions, hq.assumptions])
  | irred s0 s1 s2 id hu _ hq hst hq1 hb =>
    exact h.input hu hc (by rw [hb.out, hq1.out, hst.out, hq.out0]) rfl (by simp [CheckedStep.assume, RightO])
      (by rw [← hq.assumptions, ← hst.assumptions, ← hq1.assumptions]; exact hb.same.assumptions)
  | dup s0 s1 s2 id hu _ hq hst hq1 hb =>
    exact h.input hu hc (by rw [hb.out, hq1.out, hst.out, hq.out0]) rfl (by simp [CheckedStep.assume, RightO])
      (by rw [← hq.assumptions, ← hst.assumptions, ← hq1.assumptions]; exact hb.same.assumptions)

theorem Truth.init : Truth [] {} := ⟨List.prefix_rfl, fun _ => rfl, (fun h => by cases h), rfl, by intro pre st post e; cases pre <;> cases e⟩

/-- One accepted call. -/
theorem Truth.op {env : Env} {ops : List Op} {op : Op} {s s' : St} (hx : execs env ops {} = .ok () s) (hn : NoDeleteVar ops)
    (he : op.exec env s = .ok () s') (h : Truth (added ops) s) : Truth (added (ops ++ [op])) s' := by
  have hr := (ran_execs (Ran.init (env := env)) hx).core
  rw [List.nil_append] at hr
  have ho := op_ok hr.pre he
  have hc := hr.op ho
  have ea : added (ops ++ [op]) = added ops ++ op.added := by simp [added]
  rw [ea]
  cases op with
  | add c => exact h.add hc ho
  | step st =>
    have hq0 := quiet_step hr.pre
    have h0 : Truth (added ops) { s with step := s.step + 1 } := ⟨h.pre, h.all, h.unsat, h.asm, h.truth⟩
    have hr0 := hr.same hq0.toSame
    have ho : StepEff env st { s with step := s.step + 1 } s' := ho
    clear hq0
    revert h0 hr0 ho
    generalize hs0 : ({ s with step := s.step + 1 } : St) = s0
    intro h0 hr0 ho
    cases st with
    | addClause c => exact h0.add hc ho
    | atClause red c hs =>
      have hc : Core (added ops ++ []) s' := hc
      rw [List.append_nil] at hc
      show Truth (added ops ++ []) s'
      rw [List.append_nil]
      have hent := (hr0.at ho).2
      obtain ⟨t0, t1, t2, id, res, ids, hq, hrf, htr, hst, hs2, hq2⟩ := ho.run
      have hout : t2.out = t0.out := by rw [hs2, ← hst.out]; split <;> rfl
      have hasm : t2.assumptions = t1.assumptions := by rw [hs2]; split <;> rfl
      have hus : t2.unsat = t1.unsat := by rw [hs2]; split <;> rfl
      have hu : s0.unsat = true → s'.unsat = true := fun k => by
        rw [hq2.unsat, hus]; exact stored_unsat hst (by rw [hq.unsat]; exact k)
      have ha : s'.assumptions = s0.assumptions := by rw [hq2.assumptions, hasm, hst.assumptions, hq.assumptions]
      cases res with
      | new =>
        refine h0.more (o := [_]) hc (by rw [hq2.out, hout, hq.out0]) rfl ?_ hu (h0.truth.snoc ?_)
        · rw [assumedIn_append, ha, ← h0.asm]; rfl
        · intro e a ka
          exact clauseSat_nil (e ▸ (entails_canonical.2 hent a (h0.models ka)))
      | newlyIrredundant => exact h0.mute hc (by rw [hq2.out, hout, hq.out0]) (by simp [CheckedStep.Mute, CheckedStep.input, CheckedStep.assume, RightO]) ha hu
      | duplicate => exact h0.mute hc (by rw [hq2.out, hout, hq.out0]) (by simp) ha hu
    | unitClauses us =>
      have hc : Core (added ops ++ []) s' := hc
      show Truth (added ops ++ []) s'
      rw [List.append_nil] at hc ⊢
      obtain ⟨o, h1, h2, h3, h4⟩ := unitsEff_mute (show UnitsEff env _ _ _ from ho)
      exact h0.mute hc h1 h2 h3 h4
    | deleteClause c pr =>
      have hc : Core (added ops ++ []) s' := hc
      show Truth (added ops ++ []) s'
      rw [List.append_nil] at hc ⊢
      obtain ⟨id, r, s1, o, hd, hw, hu, hsat, hcf, hni, -, has, hout, hpid, hpl, hcc, hoo, hq⟩ := ho.run
      refine h0.mute hc (by rw [hq.out, hout]) ?_ (by rw [hq.assumptions, has]) (fun k => by rw [hq.unsat, hsat]; exact k)
      split at hoo <;> (try subst hoo) <;> (try simp [CheckedStep.Mute, CheckedStep.input, CheckedStep.assume, RightO])
      · exact absurd hoo (by simp)
      · obtain ⟨l, hl, sid, hsid, rfl⟩ := hoo; simp [CheckedStep.input, CheckedStep.assume, RightO]
      · obtain ⟨sid, hsid, rfl⟩ := hoo; simp [CheckedStep.input, CheckedStep.assume, RightO]
    | deleteVar v =>
      have hc : Core (added ops ++ []) s' := hc
      show Truth (added ops ++ []) s'
      rw [List.append_nil] at hc ⊢
      cases (show DelVarEff v _ _ from ho) with
      | free _ _ hq => exact h0.mute hc hq.out (by simp) hq.assumptions (by rw [hq.unsat]; exact id)
      | unit id b s1 _ hu hq hq' =>
        exact h0.mute hc (by rw [hq'.out, List.append_nil]; exact hq.out) (by simp [CheckedStep.Mute, CheckedStep.input, CheckedStep.assume, RightO])
          (hq'.assumptions.trans hq.assumptions) (fun k => hq'.unsat.trans (hq.unsat.trans k))
    | model a =>
      have hc : Core (added ops ++ []) s' := hc
      show Truth (added ops ++ []) s'
      rw [List.append_nil] at hc ⊢
      have hq : Quiet s0 [.model a] s' := ho.1
      refine h0.more hc hq.out rfl ?_ (by rw [hq.unsat]; exact id) (h0.truth.snoc ?_)
      · rw [assumedIn_append, hq.assumptions, ← h0.asm]; rfl
      · cases hu : s0.unsat with
        | true => exact .inl rfl
        | false =>
          have hu' : s.unsat = false := by rw [← hs0] at hu; exact hu
          obtain ⟨-, τ, k1, -, k2, k3⟩ := C17.model_sound_partial env ops s s' hx hn hu' a he
          refine .inr ⟨τ, k1, by rw [h0.all hu]; exact cnfSat_canon.2 k2, ?_⟩
          rw [h0.asm, ← hs0]
          show allHold τ s.assumptions
          rw [asm_execs (A := []) Core.init (by decide) hx]
          exact fun l hl => k3 l (mem_canonical.1 hl)
    | assumptions a =>
      have hc : Core (added ops ++ []) s' := hc
      show Truth (added ops ++ []) s'
      rw [List.append_nil] at hc ⊢
      obtain ⟨s1, hq, hq'⟩ := ho
      have hout : s'.out = s0.out ++ [.assumptions (copyCanonical a).1] := by rw [hq'.out]; show s1.out ++ _ = _; rw [hq.out0]
      refine h0.more hc hout rfl ?_ (fun k => hq'.unsat.trans (hq.unsat.trans k)) (h0.truth.snoc trivial)
      rw [assumedIn_append, hq'.assumptions]; rfl
    | failedAssumptions core hs =>
      have hc : Core (added ops ++ []) s' := hc
      show Truth (added ops ++ []) s'
      rw [List.append_nil] at hc ⊢
      have ho : FailedEff env core s0 s' := ho
      have hf := hr0.failed ho
      obtain ⟨ids, hq, -⟩ := ho.run
      refine h0.more hc hq.out rfl ?_ (by rw [hq.unsat]; exact id) (h0.truth.snoc ⟨?_, ?_⟩)
      · rw [assumedIn_append, hq.assumptions, ← h0.asm]; rfl
      · intro l hl
        have hsub := ho.sub
        rw [h0.asm]
        have hasm : s0.assumptions = (copyCanonical (assumedBy [] ops)).1 := by
          rw [← hs0]
          have := asm_execs (A := []) Core.init (by decide) hx
          exact this
        rw [hasm] at hsub ⊢
        exact ((isSubsetLoop_spec (canonical_ssorted _) (canonical_ssorted _)).1 hsub).1 l hl
      · exact fun τ k k' => hf τ (h0.models k) k'
    | _ =>
      have hc : Core (added ops ++ []) s' := hc
      show Truth (added ops ++ []) s'
      rw [List.append_nil] at hc ⊢
      obtain ⟨o, hq, hoo⟩ := ho
      refine h0.mute hc hq.out ?_ hq.assumptions (by rw [hq.unsat]; exact id)
      rcases hoo with rfl | ⟨v, u, rfl⟩ <;> simp [CheckedStep.Mute, CheckedStep.input, CheckedStep.assume, RightO]

theorem truth_execs {env : Env} {ops : List Op} : ∀ {s : St}, execs env ops {} = .ok () s → NoDeleteVar ops → Truth (added ops) s := by
  induction ops using List.reverseRecOn with
  | nil =>
    intro s h _
    have h : (EStateM.Result.ok () {} : EStateM.Result Err St Unit) = .ok () s := h
    cases h
    exact Truth.init
  | append_singleton ops op ih =>
    intro s h hn
    obtain ⟨s1, h1, h2⟩ := execs_append.1 h
    obtain ⟨s2, h3, h4⟩ := execs_ok h2
    have h4 : (EStateM.Result.ok () s2 : EStateM.Result Err St Unit) = .ok () s := h4
    cases h4
    have hn' : NoDeleteVar ops := fun v k => hn v (List.mem_append_left _ k)
    exact (ih h1 hn').op h1 hn' h3

/-! ### Every assumption and result is told -/

open Spec.Transcript (queries proofQueries Repeats sameLits)

def queriesO (o : List CheckedStep) : List CheckedStep :=
  o.filter fun t => match t with | .model _ | .assumptions _ | .failedAssumptions _ _ => true | _ => false

def RepeatsO : ProofStep → CheckedStep → Prop
  | .model a, .model m => m = a
  | .assumptions a, .assumptions b => sameLits a b
  | .failedAssumptions c _, .failedAssumptions d _ => sameLits c d
  | _, _ => False

/-- The proof steps of a history. -/
def steps (ops : List Op) : List ProofStep := ops.filterMap fun op => match op with | .step st => some st | .add _ => none

theorem unitsEff_queries {env ls s s'} (h : UnitsEff env ls s s') : ∃ o, s'.out = s.out ++ o ∧ queriesO o = [] := by
  induction h with
  | nil => exact ⟨[], by simp, rfl⟩
  | cons l ls s s0 s1 s2 s' id res ids hq hr htr hst hq2 tail ih =>
    obtain ⟨o, h1, h2⟩ := ih
    have hm : ∃ q, s2.out = s1.out ++ q ∧ queriesO q = [] := by
      refine ⟨_, hq2.out, ?_⟩
      cases res <;> rfl
    obtain ⟨q, k1, k2⟩ := hm
    refine ⟨q ++ o, by rw [h1, k1, hst.out, hq.out0, List.append_assoc], ?_⟩
    unfold queriesO at *
    rw [List.filter_append, k2, h2]; rfl

theorem sameLits_canonical (c : List Lit) : sameLits c (copyCanonical c).1 := fun _ => mem_canonical.symm

theorem addEff_queries {c s s'} (h : AddEff c s s') : ∃ o, s'.out = s.out ++ o ∧ queriesO o = [] := by
  cases h with
  | skipped hu e => exact ⟨[], by rw [e]; simp, rfl⟩
  | taut s1 hu _ hq hb => exact ⟨_, hb.out.trans hq.out, rfl⟩
  | new s0 s1 id hu _ hq hst hq1 => exact ⟨_, by rw [hq1.out, hst.out, hq.out0], rfl⟩
  | irred s0 s1 s2 id hu _ hq hst hq1 hb => exact ⟨_, by rw [hb.out, hq1.out, hst.out, hq.out0], rfl⟩
  | dup s0 s1 s2 id hu _ hq hst hq1 hb => exact ⟨_, by rw [hb.out, hq1.out, hst.out, hq.out0], rfl⟩

theorem stepEff_queries {env st s s'} (h : StepEff env st s s') :
    ∃ o, s'.out = s.out ++ o ∧ List.Forall₂ RepeatsO (proofQueries [st]) (queriesO o) := by
  have nil : (∃ o, s'.out = s.out ++ o ∧ queriesO o = []) → proofQueries [st] = [] →
      ∃ o, s'.out = s.out ++ o ∧ List.Forall₂ RepeatsO (proofQueries [st]) (queriesO o) := by
    rintro ⟨o, h1, h2⟩ h3
    exact ⟨o, h1, by rw [h2, h3]; exact .nil⟩
  cases st with
  | addClause c => exact nil (addEff_queries h) rfl
  | atClause red c hs =>
    obtain ⟨t0, t1, t2, id, res, ids, hq, hrf, htr, hst, hs2, hq2⟩ := h.run
    have hout : t2.out = t0.out := by rw [hs2, ← hst.out]; split <;> rfl
    refine nil ⟨_, by rw [hq2.out, hout, hq.out0], ?_⟩ rfl
    cases res <;> rfl
  | unitClauses us => exact nil (unitsEff_queries h) rfl
  | deleteClause c pr =>
    obtain ⟨id, r, s1, o, hd, hw, hu, hsat, hcf, hni, -, has, hout, hpid, hpl, hcc, hoo, hq⟩ := h.run
    refine nil ⟨o, by rw [hq.out, hout], ?_⟩ rfl
    split at hoo <;> (try subst hoo) <;> (try rfl)
    · exact absurd hoo (by simp)
    · obtain ⟨l, hl, sid, hsid, rfl⟩ := hoo; rfl
    · obtain ⟨sid, hsid, rfl⟩ := hoo; rfl
  | deleteVar v =>
    cases (show DelVarEff v _ _ from h) with
    | free _ _ hq => exact nil ⟨_, hq.out, rfl⟩ rfl
    | unit id b s1 _ hu hq hq' => exact nil ⟨_, by rw [hq'.out, List.append_nil]; exact hq.out, rfl⟩ rfl
  | model a => exact ⟨_, h.1.out, .cons rfl .nil⟩
  | assumptions a =>
    obtain ⟨s1, hq, hq'⟩ := h
    exact ⟨[.assumptions (copyCanonical a).1], by rw [hq'.out]; show s1.out ++ _ = _; rw [hq.out0], .cons (sameLits_canonical a) .nil⟩
  | failedAssumptions core hs =>
    obtain ⟨ids, hq, -⟩ := (show FailedEff env core _ _ from h).run
    exact ⟨[.failedAssumptions (copyCanonical core).1 ids], hq.out, .cons (sameLits_canonical core) .nil⟩
  | _ =>
    obtain ⟨o, hq, hoo⟩ := h
    refine nil ⟨o, hq.out, ?_⟩ rfl
    rcases hoo with rfl | ⟨v, u, rfl⟩ <;> rfl

theorem queries_execs {env : Env} {ops : List Op} : ∀ {s : St}, execs env ops {} = .ok () s →
    List.Forall₂ RepeatsO (proofQueries (steps ops)) (queriesO s.out) := by
  induction ops using List.reverseRecOn with
  | nil =>
    intro s h
    have h : (EStateM.Result.ok () {} : EStateM.Result Err St Unit) = .ok () s := h
    cases h
    exact .nil
  | append_singleton ops op ih =>
    intro s h
    obtain ⟨s1, h1, h2⟩ := execs_append.1 h
    obtain ⟨s2, h3, h4⟩ := execs_ok h2
    have h4 : (EStateM.Result.ok () s2 : EStateM.Result Err St Unit) = .ok () s := h4
    cases h4
    have hr := (ran_execs (Ran.init (env := env)) h1).core
    have ho := op_ok hr.pre h3
    have e : steps (ops ++ [op]) = steps ops ++ steps [op] := List.filterMap_append ..
    have e2 : ∀ a b, proofQueries (a ++ b) = proofQueries a ++ proofQueries b := fun a b => List.filter_append ..
    have e3 : ∀ a b, queriesO (a ++ b) = queriesO a ++ queriesO b := fun a b => List.filter_append ..
    rw [e, e2]
    cases op with
    | add c =>
      obtain ⟨o, k1, k2⟩ := addEff_queries ho
      rw [k1, e3, k2, List.append_nil]
      show List.Forall₂ _ (_ ++ []) _
      rw [List.append_nil]
      exact ih h1
    | step st =>
      obtain ⟨o, k1, k2⟩ := stepEff_queries ho
      rw [k1, e3]
      exact List.rel_append (ih h1) k2

namespace Naming

theorem Tells.queries {o ts} (h : Tells o ts) {sts : List ProofStep} (k : List.Forall₂ RepeatsO sts (queriesO o)) :
    List.Forall₂ Repeats sts (queries ts) := by
  induction h generalizing sts with
  | nil => cases k; exact .nil
  | @skip o ts st s h hs ih =>
    refine ih ?_
    have : queriesO (o ++ [st]) = queriesO o := by
      unfold queriesO
      rw [List.filter_append]
      cases st <;> first | (simp; done) | (simp [transcriptStep] at hs; done)
    rwa [this] at k
  | @step o ts st t s h ho hs ih =>
    have e3 : queriesO (o ++ [st]) = queriesO o ++ queriesO [st] := List.filter_append ..
    have e4 : Spec.Transcript.queries (ts ++ [t]) = Spec.Transcript.queries ts ++ Spec.Transcript.queries [t] := List.filter_append ..
    rw [e3] at k
    rw [e4]
    have k1 := List.forall₂_take_append _ _ _ k
    have k2 := List.forall₂_drop_append _ _ _ k
    rw [← List.take_append_drop (queriesO o).length sts]
    generalize List.drop (queriesO o).length sts = b at k2 ⊢
    refine List.rel_append (ih k1) ?_
    cases Naming.same ho hs with
    | input h1 h2 =>
      have : queriesO [st] = [] := by cases st <;> simp [CheckedStep.input] at h1 <;> rfl
      rw [this] at k2
      cases k2
      exact .nil
    | model hm =>
      cases k2 with
      | cons k3 k4 =>
        cases k4
        refine .cons ?_ .nil
        rename_i x
        cases x <;> simp [RepeatsO] at k3
        subst k3
        exact hm
    | assume =>
      cases k2 with
      | cons k3 k4 =>
        cases k4
        refine .cons ?_ .nil
        rename_i x
        cases x <;> simp [RepeatsO] at k3
        exact k3
    | failed =>
      cases k2 with
      | cons k3 k4 =>
        cases k4
        refine .cons ?_ .nil
        rename_i x
        cases x <;> simp [RepeatsO] at k3
        exact k3
    | _ => cases k2; exact .nil

theorem Tells.refuted {o ts} (h : Tells o ts) (k : Refutes o) : Spec.Transcript.SaysUnsat ts := by
  obtain ⟨st, hm, he⟩ := k
  unfold Spec.Transcript.SaysUnsat
  cases st with
  | addClause id c =>
    have he : c = [] := he
    subst he
    rw [h.same.1]
    exact .inr (List.mem_filterMap.2 ⟨_, hm, rfl⟩)
  | atClause i r c ps =>
    have he : c = [] := he
    subst he
    refine .inl ?_
    induction h with
    | nil => cases hm
    | @skip o ts st s h hs ih =>
      rcases List.mem_append.1 hm with hm | hm
      · exact ih hm
      · rw [List.mem_singleton] at hm
        subst hm
        cases hs
    | @step o ts st t s h ho hs ih =>
      rcases List.mem_append.1 hm with hm | hm
      · exact List.mem_append_left _ (ih hm)
      · rw [List.mem_singleton] at hm
        subst hm
        cases hs
        exact List.mem_append_right _ (List.mem_singleton_self _)
  | _ => exact he.elim

end Naming

/-- The end of `check_proof`. -/
theorem Truth.conflicts {F : List (List Lit)} {env : Env} {s s' : St} (h : Truth F s) (hc : Core F s) (hw : Witnessed s)
    (he : processUnitConflicts env s = .ok () s') : Truth F s' ∧ (s'.unsat = true → Refutes s'.out) ∧ queriesO s'.out = queriesO s.out := by
  have he : (match s.unitConflict with
    | some (a, b) => emit env (.atClause s.nextId false [] [a, b])
    | none => pure ()) s = .ok () s' := he
  cases hu : s.unitConflict with
  | none =>
    rw [hu] at he
    cases he
    exact ⟨h, fun k => (hw k).resolve_left (by rw [hu]; simp), rfl⟩
  | some ab =>
    rw [hu] at he
    have he : emit env (.atClause s.nextId false [] [ab.1, ab.2]) s = .ok () s' := he
    have hq : wp (emit env (.atClause s.nextId false [] [ab.1, ab.2])) (fun _ s' => Quiet s [.atClause s.nextId false [] [ab.1, ab.2]] s')
        (fun _ _ => True) s := wp_emit_quiet hc.pre.wf (fun s' h _ => h) (fun _ _ _ => trivial)
    unfold wp at hq
    rw [he] at hq
    refine ⟨h.more (hc.same hq.toSame) hq.out rfl ?_ (by rw [hq.unsat]; exact id) (h.truth.snoc fun _ => ?_), fun _ => ?_, ?_⟩
    · rw [assumedIn_append, hq.assumptions, ← h.asm]; rfl
    · exact h.unsat (hc.conf (by rw [hu]; rfl))
    · rw [hq.out]; exact ⟨_, List.mem_append_right _ (List.mem_singleton_self _), rfl⟩
    · rw [hq.out]; unfold queriesO; rw [List.filter_append]; simp

end Varisat.Checker
