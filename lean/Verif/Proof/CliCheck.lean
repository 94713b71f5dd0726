import Verif.Proof.Cli
import Verif.Proof.CheckerOut
/-!
# The output of `--check`
-/
namespace Varisat.Cli
open Spec.Lrat (split int?)

theorem decNat_noLF (n : Nat) : (10 : UInt8) ∉ decNat n := (decNat_noSpace n).2

/-- Lines of the transcript. -/
structure TLines (out : Bytes) (xs : List Checker.TranscriptStep) (ls : List Bytes) : Prop where
  is : IsLines out ls
  tag : ∀ l ∈ ls, l.take 2 = ascii "t "
  unsat : ascii "t UNSAT" ∈ ls ↔ .unsat ∈ xs
  sat : ascii "t SAT" ∈ ls ↔ ∃ m, .model m ∈ xs

/-- A line of a summary. -/
theorem summary_lines (n : Nat) (x : Summary) : ∃ l, IsLines (summaryLine n x) [l] ∧ l.take 2 = ascii "t " ∧ l.getLast? ≠ some 84 := by
  have key : ∀ (a b : Bytes), (10 : UInt8) ∉ a → (10 : UInt8) ∉ b → a.take 2 = ascii "t " → 2 ≤ a.length →
      b.getLast? ≠ some 84 → b ≠ [] →
      ∃ l, IsLines (a ++ decNat n ++ b ++ [10]) [l] ∧ l.take 2 = ascii "t " ∧ l.getLast? ≠ some 84 := by
    intro a b ha hb h1 h2 h3 h4
    refine ⟨a ++ decNat n ++ b, .one ?_, ?_, ?_⟩
    · simp only [List.mem_append, not_or]
      exact ⟨⟨ha, decNat_noLF n⟩, hb⟩
    · rw [List.append_assoc, List.take_append_of_le_length h2, h1]
    · rwa [List.getLast?_append_of_ne_nil _ h4]
  cases x
  all_goals exact key _ _ (by decide) (by decide) (by decide) (by decide) (by decide) (by decide)

theorem printSummary_lines (t : Transcript) (o : Option Summary) : ∃ ls, IsLines (printSummary t o).2 ls ∧
    (∀ l ∈ ls, l.take 2 = ascii "t ") ∧ ascii "t UNSAT" ∉ ls ∧ ascii "t SAT" ∉ ls := by
  unfold printSummary
  split
  · exact ⟨[], .nil, (fun _ h => by cases h), (fun h => by cases h), (fun h => by cases h)⟩
  · split
    · exact ⟨[], .nil, (fun _ h => by cases h), (fun h => by cases h), (fun h => by cases h)⟩
    · rename_i x _
      obtain ⟨l, h1, h2, h3⟩ := summary_lines t.counter x
      refine ⟨[l], h1, ?_, ?_, ?_⟩
      · intro l' hl'; rw [List.mem_singleton] at hl'; subst hl'; exact h2
      · rw [List.mem_singleton]; rintro rfl; exact h3 (by decide)
      · rw [List.mem_singleton]; rintro rfl; exact h3 (by decide)

theorem printStep_lines (t : Transcript) (x : Checker.TranscriptStep) : ∃ ls, TLines (printStep t x).2 [x] ls := by
  have plain : ∀ (o : Option Summary), x ≠ .unsat → (∀ m, x ≠ .model m) → ∃ ls, TLines (printSummary t o).2 [x] ls := by
    intro o hx hy
    obtain ⟨ls, h1, h2, h3, h4⟩ := printSummary_lines t o
    exact ⟨ls, h1, h2, ⟨fun k => absurd k h3, fun k => absurd (List.mem_singleton.1 k).symm hx⟩,
      ⟨fun k => absurd k h4, fun ⟨m, k⟩ => absurd (List.mem_singleton.1 k).symm (hy m)⟩⟩
  have more : ∀ (l : Bytes), (10 : UInt8) ∉ l → l.take 2 = ascii "t " → (l = ascii "t UNSAT" ↔ x = .unsat) →
      (l = ascii "t SAT" ↔ ∃ m, x = .model m) → ∃ ls, TLines ((printSummary t none).2 ++ (l ++ [10])) [x] ls := by
    intro l hl h2 h3 h4
    obtain ⟨ls, k1, k2, k3, k4⟩ := printSummary_lines t none
    refine ⟨ls ++ [l], k1.append (.one hl), ?_, ?_, ?_⟩
    · intro l' hl'
      rcases List.mem_append.1 hl' with q | q
      · exact k2 _ q
      · rw [List.mem_singleton] at q; subst q; exact h2
    · rw [List.mem_append, List.mem_singleton, List.mem_singleton]
      exact ⟨fun q => (q.elim (fun q => absurd q k3) (fun q => (h3.1 q.symm).symm)), fun q => .inr (h3.2 q.symm).symm⟩
    · rw [List.mem_append, List.mem_singleton]
      refine ⟨fun q => (q.elim (fun q => absurd q k4) (fun q => ?_)), fun ⟨m, q⟩ => .inr (h4.2 ⟨m, (List.mem_singleton.1 q).symm⟩).symm⟩
      obtain ⟨m, q⟩ := h4.1 q.symm
      exact ⟨m, by rw [q]; simp⟩
  have num : ∀ (a : Bytes) (n : Nat) (b : Bytes), (10 : UInt8) ∉ a → (10 : UInt8) ∉ b → a.take 2 = ascii "t " → 2 ≤ a.length →
      b.getLast? ≠ some 84 → b ≠ [] → x ≠ .unsat → (∀ m, x ≠ .model m) →
      ∃ ls, TLines ((printSummary t none).2 ++ a ++ decNat n ++ b ++ [10]) [x] ls := by
    intro a n b ha hb h1 h2 h3 h4 hx hy
    have last : (a ++ decNat n ++ b).getLast? ≠ some 84 := by rwa [List.getLast?_append_of_ne_nil _ h4]
    have := more (a ++ decNat n ++ b) (by
      simp only [List.mem_append, not_or]
      exact ⟨⟨ha, decNat_noLF n⟩, hb⟩) (by rw [List.append_assoc, List.take_append_of_le_length h2, h1])
      ⟨fun k => absurd (by rw [k]; decide) last, fun k => absurd k hx⟩
      ⟨fun k => absurd (by rw [k]; decide) last, fun ⟨m, k⟩ => absurd k (hy m)⟩
    simpa only [List.append_assoc] using this
  cases x with
  | witnessVar _ => exact plain _ (by simp) (by simp)
  | sampleVar _ => exact plain _ (by simp) (by simp)
  | hideVar _ => exact plain _ (by simp) (by simp)
  | observeInternalVar _ => exact plain _ (by simp) (by simp)
  | addClause _ => exact plain _ (by simp) (by simp)
  | unsat =>
    have := more (ascii "t UNSAT") (by decide) (by decide) (by simp) (by simp; decide)
    simpa only [printStep, List.append_assoc] using this
  | model _ =>
    have := more (ascii "t SAT") (by decide) (by decide) (by simp; decide) (by simp)
    simpa only [printStep, List.append_assoc] using this
  | assume ls => exact num _ _ _ (by decide) (by decide) (by decide) (by decide) (by decide) (by decide) (by simp) (by simp)
  | failedAssumptions c => exact num _ _ _ (by decide) (by decide) (by decide) (by decide) (by decide) (by decide) (by simp) (by simp)

theorem printSteps_lines (xs : List Checker.TranscriptStep) (t : Transcript) : ∃ ls, TLines (printSteps t xs) xs ls := by
  induction xs generalizing t with
  | nil => exact ⟨[], .nil, (fun _ h => by cases h), ⟨fun h => (by cases h), fun h => (by cases h)⟩, by simp⟩
  | cons x xs ih =>
    obtain ⟨ls, h1, h2, h3, h4⟩ := printStep_lines t x
    obtain ⟨ms, k1, k2, k3, k4⟩ := ih (printStep t x).1
    refine ⟨ls ++ ms, h1.append k1, ?_, ?_, ?_⟩
    · intro l hl
      rcases List.mem_append.1 hl with q | q
      · exact h2 l q
      · exact k2 l q
    · rw [List.mem_append, h3, k3, List.mem_singleton, List.mem_cons]
    · rw [List.mem_append, h4, k4]
      rw [← exists_or]
      simp only [List.mem_singleton, List.mem_cons, List.not_mem_nil, or_false]

/-- Lines that are comments or transcript lines. -/
def Plainly (out : Bytes) (u : Prop) : Prop :=
  ∃ ls, IsLines out ls ∧ (∀ l ∈ ls, l.take 2 = ascii "c " ∨ l.take 2 = ascii "t ") ∧ (ascii "t UNSAT" ∈ ls ↔ u)

theorem Comments.plainly {a : Bytes} (h : Comments a) : Plainly a False := by
  obtain ⟨ls, h1, h2⟩ := h
  refine ⟨ls, h1, fun l hl => .inl (h2 l hl), ⟨fun k => ?_, False.elim⟩⟩
  have := h2 _ k
  unfold Comment at this
  revert this; decide

theorem Plainly.append {a b : Bytes} {u v : Prop} (h : Plainly a u) (k : Plainly b v) : Plainly (a ++ b) (u ∨ v) := by
  obtain ⟨ls, h1, h2, h3⟩ := h
  obtain ⟨ms, k1, k2, k3⟩ := k
  refine ⟨ls ++ ms, h1.append k1, fun l hl => ?_, ?_⟩
  · rcases List.mem_append.1 hl with g | g
    · exact h2 l g
    · exact k2 l g
  · rw [List.mem_append, h3, k3]

theorem Plainly.congr {a : Bytes} {u v : Prop} (h : Plainly a u) (k : u ↔ v) : Plainly a v := by
  obtain ⟨ls, h1, h2, h3⟩ := h
  exact ⟨ls, h1, h2, h3.trans k⟩

theorem Plainly.steps (xs : List Checker.TranscriptStep) : Plainly (printSteps {} xs) (.unsat ∈ xs) := by
  obtain ⟨ls, h⟩ := printSteps_lines xs {}
  exact ⟨ls, h.is, fun l hl => .inr (h.tag l hl), h.unsat⟩

/-- What the reader of the output sees. -/
theorem Plainly.verdict {a : Bytes} {u : Prop} (h : Plainly a u) (t : Bytes) (ht : (10 : UInt8) ∉ ascii "s " ++ t) :
    verdicts (a ++ (ascii "s " ++ t ++ [10])) = [t] ∧ (ascii "t UNSAT" ∈ outLines (a ++ (ascii "s " ++ t ++ [10])) ↔ u) := by
  obtain ⟨ls, h1, h2, h3⟩ := h
  have k := h1.append (IsLines.one ht)
  unfold verdicts linesWith
  rw [k.lines]
  refine ⟨?_, ?_⟩
  · rw [List.filterMap_append, List.filterMap_append]
    have e1 : ls.filterMap (fun l => if l.take 2 = ascii "s " then some (l.drop 2) else none) = [] := by
      rw [List.filterMap_eq_nil_iff]
      intro l hl
      rw [if_neg]
      intro q
      rcases h2 l hl with g | g <;> rw [g] at q <;> revert q <;> decide
    have e : (ascii "s " ++ t).take 2 = ascii "s " := rfl
    have e' : (ascii "s " ++ t).drop 2 = t := rfl
    rw [e1]
    simp only [List.filterMap_cons, e, e', List.filterMap_nil, if_true, List.nil_append]
    rw [if_neg (by decide)]
    rfl
  · rw [List.append_assoc, List.mem_append, h3]
    refine ⟨fun q => q.elim id (fun q => ?_), .inl⟩
    exfalso
    simp only [List.mem_append, List.mem_singleton] at q
    rcases q with q | q
    · have := congrArg (List.take 2) q
      have e : (ascii "s " ++ t).take 2 = ascii "s " := rfl
      rw [e] at this
      revert this; decide
    · revert q; decide

theorem Plainly.none {a : Bytes} {u : Prop} (h : Plainly a u) :
    verdicts a = [] ∧ (ascii "t UNSAT" ∈ outLines a ↔ u) := by
  obtain ⟨ls, h1, h2, h3⟩ := h
  unfold verdicts linesWith
  rw [h1.lines]
  refine ⟨?_, ?_⟩
  · rw [List.filterMap_append]
    have e1 : ls.filterMap (fun l => if l.take 2 = ascii "s " then some (l.drop 2) else Option.none) = [] := by
      rw [List.filterMap_eq_nil_iff]
      intro l hl
      rw [if_neg]
      intro q
      rcases h2 l hl with g | g <;> rw [g] at q <;> revert q <;> decide
    rw [e1]
    decide
  · rw [List.mem_append, h3]
    exact ⟨fun q => q.elim id (fun q => absurd q (by decide)), .inl⟩

/-- What has been checked by a run that prints `VERIFIED`. -/
structure Verified (env : Checker.Env) (args : CheckArgs) (s : Checker.St) : Prop where
  mk ::
  ex : ∃ i p fs s0 bs, args.input = some i ∧ i.fails = false ∧
    DimacsParser.parseIncremental .new (i.chunks.map (·, true)) true = (p, fs, Option.none) ∧
    addAll env fs {} = .ok () s0 ∧ args.proof = some bs ∧ Checker.checkProof env args.fill bs s0 = .ok () s

theorem runCheck_cases {env : Checker.Env} {log : Log} {args : CheckArgs} {out : Bytes} {code : Nat} (hl : log.OneLine)
    (h : runCheck env log args = some (out, code)) :
    (∃ s a, code = 0 ∧ Verified env args s ∧ out = a ++ (ascii "s VERIFIED" ++ [10]) ∧ Plainly a (.unsat ∈ s.tout)) ∨
    (∃ a u, code = 1 ∧ out = a ++ (ascii "s NOT VERIFIED" ++ [10]) ∧ Plainly a u) ∨
    (∃ u, code = 1 ∧ Plainly out u) := by
  have hb1 := (hl.comments (o := log.banner1) (by simp))
  have hb2 := (hl.comments (o := log.banner2) (by simp))
  have hrd := (hl.comments (o := log.reading) (by simp))
  have hpr := (hl.comments (o := log.proof) (by simp)).plainly
  have her := (hl.comments (o := log.error) (by simp)).plainly
  have hfs := (hl.comments (o := log.failedStep) (by simp)).plainly
  have hsol := hl.solving.plainly
  have hpre := ((hb1.append hb2).append hrd).plainly
  unfold runCheck at h
  simp only at h
  generalize logLine log.banner1 ++ logLine log.banner2 ++ logLine log.reading = pre at h hpre
  split at h
  · injection h with h; injection h with h1 h2
    exact .inr (.inr ⟨_, h2.symm, h1 ▸ hpre.append her⟩)
  rename_i i hi
  split at h
  · injection h with h; injection h with h1 h2
    exact .inr (.inr ⟨_, h2.symm, h1 ▸ hpre.append her⟩)
  split at h
  · injection h with h; injection h with h1 h2
    exact .inr (.inr ⟨_, h2.symm, h1 ▸ hpre.append her⟩)
  rename_i hf
  have hf : i.fails = false := by simpa using hf
  rcases hp : DimacsParser.parseIncremental .new (i.chunks.map (·, true)) true with ⟨p, fs, err⟩
  rw [hp] at h
  simp only at h
  split at h
  · cases h
  · rename_i s _ _
    injection h with h; injection h with h1 h2
    exact .inr (.inr ⟨_, h2.symm, h1 ▸ (hpre.append (.steps s.tout)).append her⟩)
  rename_i s0 hs0
  cases err with
  | some x =>
    simp only at h
    injection h with h; injection h with h1 h2
    exact .inr (.inr ⟨_, h2.symm, h1 ▸ (hpre.append (.steps s0.tout)).append her⟩)
  | none =>
    simp only at h
    split at h
    · injection h with h; injection h with h1 h2
      exact .inr (.inr ⟨_, h2.symm, h1 ▸ (((hpre.append hsol).append (.steps s0.tout)).append hpr).append her⟩)
    rename_i bs hbs
    split at h
    · cases h
    · rename_i s hs
      injection h with h; injection h with h1 h2
      refine .inl ⟨s, _, h2.symm, ⟨i, p, fs, s0, bs, hi, hf, hp, hs0, hbs, hs⟩, ?_,
        (((hpre.append hsol).append hpr).append (.steps s.tout)).congr (by simp)⟩
      rw [← h1]; simp only [List.append_assoc]
    · rename_i s _ _
      injection h with h; injection h with h1 h2
      refine .inr (.inl ⟨_, _, h2.symm, ?_,
        ((((hpre.append hsol).append hpr).append (.steps s.tout)).append her).append hfs⟩)
      rw [← h1]; simp only [List.append_assoc]

/-- The clauses of the input are added one after the other. -/
theorem addAll_execs {env : Checker.Env} (fs : List CnfFormula) : ∀ {css : List (List (List Lit))} {s s' : Checker.St},
    fs.mapM CnfFormula.iter = some css → addAll env fs s = .ok () s' →
    Checker.execs env (css.flatten.map .add) s = .ok () s' := by
  induction fs with
  | nil =>
    intro css s s' h1 h2
    obtain rfl : [] = css := by simpa using h1
    exact h2
  | cons f fs ih =>
    intro css s s' h1 h2
    rw [List.mapM_cons] at h1
    unfold addAll at h2
    cases hf : f.iter with
    | none => rw [hf] at h1; cases h1
    | some cs =>
      rw [hf] at h1 h2
      simp only at h2
      cases hg : fs.mapM CnfFormula.iter with
      | none => rw [hg] at h1; cases h1
      | some css' =>
        rw [hg] at h1
        obtain rfl : cs :: css' = css := by simpa using h1
        split at h2
        · cases h2
        · rename_i t ht
          rw [List.flatten_cons, List.map_append]
          exact Checker.execs_append.2 ⟨t, ht, ih hg h2⟩

theorem adds_ended {env : Checker.Env} (cs : List (List Lit)) : ∀ {s s' : Checker.St},
    Checker.execs env (cs.map .add) s = .ok () s' → s'.ended = s.ended := by
  induction cs with
  | nil => intro s s' h; cases h; rfl
  | cons c cs ih =>
    intro s s' h
    have : Checker.execs env ([.add c] ++ cs.map .add) s = .ok () s' := h
    obtain ⟨t, h1, h2⟩ := Checker.execs_append.1 this
    rw [ih h2]
    have h1 : (Checker.addClause env c >>= fun _ => pure ()) s = .ok () t := h1
    have hp := Checker.pres_addClause env c s
    cases hc : Checker.addClause env c s with
    | error x u =>
      have : (EStateM.Result.error x u : EStateM.Result Checker.Err Checker.St Unit) = .ok () t := by
        rw [← h1]; simp only [bind, EStateM.bind, hc]
      cases this
    | ok x u =>
      rw [hc] at hp
      have : (EStateM.Result.ok () u : EStateM.Result Checker.Err Checker.St Unit) = .ok () t := by
        rw [← h1]; simp only [bind, EStateM.bind, hc]; rfl
      injection this with _ this
      subst this
      exact hp.ended

end Varisat.Cli
