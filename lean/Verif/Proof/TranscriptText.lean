import Verif.Proof.CliCheck
import Verif.Spec.TranscriptText
/-! The lines printed by `--check` for the steps of a transcript. -/
namespace Varisat.Cli
open Spec.TranscriptText
open Checker (TranscriptStep)

def kindOf : TranscriptStep → Option Summary
  | .addClause _ => some .addClause
  | .witnessVar _ => some .witnessVar
  | .sampleVar _ => some .sampleVar
  | .hideVar _ => some .hideVar
  | .observeInternalVar _ => some .observeInternalVar
  | _ => none

theorem counted_kind (t : TranscriptStep) : (counted t).isSome = (kindOf t).isSome := by cases t <;> rfl

theorem counted_eq {t u : TranscriptStep} : counted t = counted u ↔ kindOf t = kindOf u := by
  cases t <;> cases u <;> simp [counted, kindOf]

/-- Steps with the given kind already counted. -/
def startRuns (t : TranscriptStep) (c : Nat) : List (TranscriptStep × Nat) → List (TranscriptStep × Nat)
  | [] => [(t, c)]
  | (u, n) :: rest => if (counted t).isSome ∧ counted t = counted u then (t, n + c) :: rest else (t, c) :: (u, n) :: rest

theorem runs_cons (t : TranscriptStep) (ts : List TranscriptStep) : runs (t :: ts) = startRuns t 1 (runs ts) := by
  rw [runs]
  cases runs ts <;> rfl

theorem text_of_kind {t u : TranscriptStep} (h : counted t = counted u) (hs : (counted t).isSome) (n : Nat) : text n t = text n u := by
  unfold text
  rw [← h]
  cases hc : counted t with
  | none => rw [hc] at hs; cases hs
  | some p => rfl

theorem runs_head {t : TranscriptStep} {ts : List TranscriptStep} : ∃ n rest, runs (t :: ts) = (t, n) :: rest := by
  rw [runs]
  split
  · exact ⟨_, _, rfl⟩
  · split <;> exact ⟨_, _, rfl⟩

theorem text_noLF (n : Nat) (t : TranscriptStep) : (10 : UInt8) ∉ ascii "t " ++ text n t := by
  have k := decNat_noLF
  cases t <;> simp only [text, counted, List.mem_append, not_or] <;>
    (try simp only [k, not_false_eq_true, and_true, true_and]) <;> decide

/-- The line of a pending summary. -/
theorem summaryLine_text {t : TranscriptStep} {x : Summary} (h : kindOf t = some x) (n : Nat) :
    summaryLine n x = (ascii "t " ++ text n t) ++ [10] := by
  have e : ∀ (a b : String) (c : String), ascii c = ascii "t " ++ ascii a →
      ascii c ++ decNat n ++ ascii b ++ [10] = ascii "t " ++ (ascii a ++ decNat n ++ ascii b) ++ [10] := by
    intro a b c h; rw [h]; simp only [List.append_assoc]
  cases t <;> simp only [kindOf, Option.some.injEq, reduceCtorEq] at h <;> subst h <;> exact e _ _ _ (by decide)

/-- The text of a line, with the tag and without line break. -/
def shown (rs : List (TranscriptStep × Nat)) : List Bytes := (ended rs).map fun r => ascii "t " ++ text r.2 r.1

theorem ended_cons_none {t : TranscriptStep} (h : kindOf t = none) (n : Nat) (rs : List (TranscriptStep × Nat)) :
    ended ((t, n) :: rs) = (t, n) :: ended rs := by
  cases rs with
  | nil =>
    show (if (counted t).isSome then [] else [(t, n)]) = [(t, n)]
    rw [if_neg (by rw [counted_kind, h]; simp)]
  | cons r rs => rfl

theorem startRuns_none {t : TranscriptStep} (h : kindOf t = none) (c : Nat) (rs : List (TranscriptStep × Nat)) :
    startRuns t c rs = (t, c) :: rs := by
  cases rs with
  | nil => rfl
  | cons r rs => rw [startRuns, if_neg (by rw [counted_kind, h]; simp)]

/-- Same kind: the counts add up. -/
theorem startRuns_same {t u : TranscriptStep} (hs : (counted t).isSome) (h : counted t = counted u) (c d : Nat) (rs : List (TranscriptStep × Nat)) :
    ∃ n rest, startRuns u d rs = (u, n) :: rest ∧ startRuns t c (startRuns u d rs) = (t, n + c) :: rest ∧ startRuns t (c + d) rs = (t, n + c) :: rest := by
  cases rs with
  | nil =>
    refine ⟨d, [], rfl, ?_, ?_⟩
    · rw [startRuns, startRuns, if_pos ⟨hs, h⟩]
    · rw [startRuns, Nat.add_comm]
  | cons r rs =>
    obtain ⟨v, n⟩ := r
    rw [startRuns]
    by_cases k : (counted u).isSome ∧ counted u = counted v
    · rw [if_pos k]
      refine ⟨n + d, rs, rfl, ?_, ?_⟩
      · rw [startRuns, if_pos ⟨hs, h⟩]
      · rw [startRuns, if_pos ⟨hs, h.trans k.2⟩]; congr 2; omega
    · rw [if_neg k]
      refine ⟨d, (v, n) :: rs, rfl, ?_, ?_⟩
      · rw [startRuns, if_pos ⟨hs, h⟩]
      · rw [startRuns, if_neg (by rw [h]; exact k), Nat.add_comm]

theorem shown_cons {t u : TranscriptStep} {n m : Nat} {rs : List (TranscriptStep × Nat)} :
    shown ((t, n) :: (u, m) :: rs) = (ascii "t " ++ text n t) :: shown ((u, m) :: rs) := rfl

/-- The state of the printer after steps like `t`. -/
def pending (t : TranscriptStep) (c : Nat) : Transcript := ⟨kindOf t, c⟩

theorem printStep_none {p : Transcript} {t : TranscriptStep} (h : kindOf t = none) :
    printStep p t = ((printSummary p none).1, (printSummary p none).2 ++ (ascii "t " ++ text 1 t ++ [10])) := by
  cases t <;> simp only [kindOf, reduceCtorEq] at h
  · simp only [printStep, text, counted, List.append_assoc, Prod.mk.injEq, true_and, List.append_cancel_left_eq]; decide
  · simp only [printStep, text, counted, List.append_assoc, Prod.mk.injEq, true_and, List.append_cancel_left_eq]; decide
  · rename_i ls
    have : ascii "t ASSUME " = ascii "t " ++ ascii "ASSUME " := by decide
    simp only [printStep, text, counted, this, List.append_assoc]
  · rename_i ls
    have : ascii "t UNSAT WITH " = ascii "t " ++ ascii "UNSAT WITH " := by decide
    simp only [printStep, text, counted, this, List.append_assoc]

theorem printStep_some {p : Transcript} {t : TranscriptStep} {x : Summary} (h : kindOf t = some x) : printStep p t = printSummary p (some x) := by
  cases t <;> simp only [kindOf, Option.some.injEq, reduceCtorEq] at h <;> subst h <;> rfl

/-- What is printed after steps like `t`, of which `c` have not been printed if they are counted. -/
theorem printSteps_pending (ts : List TranscriptStep) : ∀ (p : Transcript),
    (p.last = none → IsLines (printSteps p ts) (shown (runs ts))) ∧
    (∀ t x, kindOf t = some x → p.last = some x → IsLines (printSteps p ts) (shown (startRuns t p.counter (runs ts)))) := by
  induction ts with
  | nil =>
    refine fun p => ⟨fun _ => .nil, fun t x h k => ?_⟩
    have : shown (startRuns t p.counter (runs [])) = [] := by
      show List.map _ (ended [(t, p.counter)]) = []
      rw [ended, if_pos (by rw [counted_kind, h]; rfl)]; rfl
    rw [this]
    exact .nil
  | cons u ts ih =>
    intro p
    have ih := fun p => ih p
    rw [runs_cons]
    cases hu : kindOf u with
    | none =>
      have he : ∀ rs, shown (startRuns u 1 rs) = (ascii "t " ++ text 1 u) :: shown rs := by
        intro rs
        rw [startRuns_none hu]
        unfold shown
        rw [ended_cons_none hu]; rfl
      have hl : IsLines (ascii "t " ++ text 1 u ++ [10]) [ascii "t " ++ text 1 u] := .one (text_noLF 1 u)
      refine ⟨fun k => ?_, fun t x h k => ?_⟩
      · rw [printSteps, printStep_none hu]
        have e : printSummary p none = ({ p with counter := p.counter + 1 }, []) := by unfold printSummary; rw [if_pos k]
        rw [e, he]
        exact hl.append ((ih { p with counter := p.counter + 1 }).1 k)
      · rw [printSteps, printStep_none hu]
        have e : printSummary p none = ({ last := none, counter := 1 }, summaryLine p.counter x) := by
          unfold printSummary; rw [if_neg (by rw [k]; simp), k]
        rw [e]
        have e2 : startRuns t p.counter (startRuns u 1 (runs ts)) = (t, p.counter) :: startRuns u 1 (runs ts) := by
          rw [startRuns_none hu, startRuns, if_neg]
          rintro ⟨h1, h2⟩
          rw [counted_eq, h, hu] at h2; cases h2
        have e3 : shown ((t, p.counter) :: startRuns u 1 (runs ts)) = (ascii "t " ++ text p.counter t) :: shown (startRuns u 1 (runs ts)) := by
          rw [startRuns_none hu]; rfl
        rw [e2, e3, he, summaryLine_text h]
        exact ((IsLines.one (text_noLF _ t)).append hl).append ((ih { last := none, counter := 1 }).1 rfl)
    | some y =>
      have hs : (counted u).isSome := by rw [counted_kind, hu]; rfl
      refine ⟨fun k => ?_, fun t x h k => ?_⟩
      · rw [printSteps, printStep_some hu]
        have e : printSummary p (some y) = ({ last := some y, counter := 1 }, []) := by
          unfold printSummary; rw [if_neg (by rw [k]; simp), k]
        rw [e]
        exact (ih { last := some y, counter := 1 }).2 u y hu rfl
      · rw [printSteps, printStep_some hu]
        have hst : (counted t).isSome := by rw [counted_kind, h]; rfl
        by_cases hxy : x = y
        · subst hxy
          have e : printSummary p (some x) = ({ p with counter := p.counter + 1 }, []) := by unfold printSummary; rw [if_pos k]
          rw [e]
          obtain ⟨n, rest, -, h2, h3⟩ := startRuns_same hst (counted_eq.2 (h.trans hu.symm)) p.counter 1 (runs ts)
          rw [h2, ← h3]
          exact (ih { p with counter := p.counter + 1 }).2 t x h k
        · have e : printSummary p (some y) = ({ last := some y, counter := 1 }, summaryLine p.counter x) := by
            unfold printSummary; rw [if_neg (by rw [k]; simpa using hxy), k]
          rw [e]
          have hd : ∀ n, ∀ r, startRuns t p.counter ((u, n) :: r) = (t, p.counter) :: (u, n) :: r := by
            intro n r
            rw [startRuns, if_neg]
            rintro ⟨h1, h2⟩
            rw [counted_eq, h, hu] at h2
            exact hxy (Option.some.inj h2)
          obtain ⟨n, rest, hr⟩ := runs_head (t := u) (ts := ts)
          rw [runs_cons] at hr
          rw [hr, hd, shown_cons, summaryLine_text h, ← hr]
          exact (IsLines.one (text_noLF _ t)).append ((ih { last := some y, counter := 1 }).2 u y hu rfl)

theorem printSteps_isLines (ts : List TranscriptStep) : IsLines (printSteps {} ts) ((lines ts).map (ascii "t " ++ ·)) := by
  have := (printSteps_pending ts {}).1 rfl
  unfold lines
  rw [List.map_map]
  exact this

end Varisat.Cli
