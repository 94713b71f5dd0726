import Verif.Spec.Cli
import Verif.Proof.Lrat
/-!
# The output of the command line tool
-/
namespace Varisat.Cli
open Spec.Lrat (split int?)

variable {α : Type} [LinearOrder α]

/-- The output consists of the given lines. -/
def IsLines (out : Bytes) (ls : List Bytes) : Prop := out = sepd 10 ls ∧ ∀ l ∈ ls, (10 : UInt8) ∉ l

theorem IsLines.nil : IsLines [] [] := ⟨rfl, (fun _ h => by cases h)⟩

theorem IsLines.append {a b : Bytes} {ls ms : List Bytes} (h : IsLines a ls) (k : IsLines b ms) :
    IsLines (a ++ b) (ls ++ ms) := by
  refine ⟨by rw [h.1, k.1]; simp [sepd], fun l hl => ?_⟩
  rcases List.mem_append.1 hl with g | g
  · exact h.2 l g
  · exact k.2 l g

theorem IsLines.one {l : Bytes} (h : (10 : UInt8) ∉ l) : IsLines (l ++ [10]) [l] :=
  ⟨by simp [sepd], fun x hx => by rw [List.mem_singleton] at hx; subst hx; exact h⟩

theorem IsLines.lines {out : Bytes} {ls : List Bytes} (h : IsLines out ls) : outLines out = ls ++ [[]] := by
  unfold outLines
  have := split_sepd (sep := (10 : UInt8)) (r := []) h.2
  rw [List.append_nil] at this
  rw [h.1, this]
  rfl

/-- A comment line. -/
def Comment (l : Bytes) : Prop := l.take 2 = ascii "c "

/-- The comment lines of a log message. -/
def logLines : Option Bytes → List Bytes
  | none => []
  | some m => [ascii "c " ++ m]

theorem logLines_comment (o : Option Bytes) : ∀ l ∈ logLines o, Comment l := by
  cases o with
  | none => intro l hl; cases hl
  | some m => intro l hl; simp only [logLines, List.mem_singleton] at hl; subst hl; rfl

theorem IsLines.log {o : Option Bytes} (h : ∀ m, o = some m → (10 : UInt8) ∉ m) : IsLines (logLine o) (logLines o) := by
  cases o with
  | none => exact .nil
  | some m =>
    refine IsLines.one (l := ascii "c " ++ m) ?_
    intro k
    rcases List.mem_append.1 k with g | g
    · revert g; decide
    · exact h m rfl g

/-- Output that consists of comments. -/
def Comments (out : Bytes) : Prop := ∃ ls, IsLines out ls ∧ ∀ l ∈ ls, Comment l

theorem Comments.append {a b : Bytes} (h : Comments a) (k : Comments b) : Comments (a ++ b) := by
  obtain ⟨ls, h1, h2⟩ := h
  obtain ⟨ms, k1, k2⟩ := k
  refine ⟨ls ++ ms, h1.append k1, fun l hl => ?_⟩
  rcases List.mem_append.1 hl with g | g
  · exact h2 l g
  · exact k2 l g

theorem Log.OneLine.comments {log : Log} (h : log.OneLine) {o : Option Bytes}
    (ho : o ∈ [log.banner1, log.banner2, log.reading, log.proof, log.error, log.failedStep] ++ log.solving) : Comments (logLine o) :=
  ⟨logLines o, .log (fun m hm => h m (hm ▸ ho)), logLines_comment o⟩

theorem Log.OneLine.solving {log : Log} (h : log.OneLine) : Comments (log.solving.flatMap logLine) := by
  have : ∀ o ∈ log.solving, Comments (logLine o) := fun o ho => h.comments (List.mem_append.2 (.inr ho))
  generalize log.solving = os at this
  induction os with
  | nil => exact ⟨[], .nil, fun _ h => by cases h⟩
  | cons o os ih =>
    rw [List.flatMap_cons]
    exact (this o (by simp)).append (ih (fun x hx => this x (by simp [hx])))

/-- Lines with a tag, after comments. -/
theorem linesWith_eq {tag : String} {a b : Bytes} {ms : List Bytes} (ht : ascii tag ≠ ascii "c ") (hn : ascii tag ≠ [])
    (ha : Comments a) (hb : IsLines b ms) :
    linesWith tag (a ++ b) = ms.filterMap fun l => if l.take 2 = ascii tag then some (l.drop 2) else none := by
  obtain ⟨ls, h1, h2⟩ := ha
  unfold linesWith
  rw [(h1.append hb).lines, List.filterMap_append, List.filterMap_append]
  have e1 : ls.filterMap (fun l => if l.take 2 = ascii tag then some (l.drop 2) else none) = [] := by
    rw [List.filterMap_eq_nil_iff]
    intro l hl
    rw [if_neg]
    intro k
    exact ht (k.symm.trans (h2 l hl))
  rw [e1]
  have : ([[]] : List Bytes).filterMap (fun l => if l.take 2 = ascii tag then some (l.drop 2) else none) = [] := by
    simp only [List.filterMap_cons, List.take_nil]
    rw [if_neg (fun k => hn k.symm)]
    rfl
  rw [this]; simp

/-- The value line. -/
def valueLine (m : List Lit) : Bytes := ascii "v" ++ m.flatMap (fun l => ascii " " ++ decInt l.toDimacs) ++ ascii " 0"

theorem valueLine_eq (m : List Lit) : valueLine m = ascii "v " ++ (sepd 32 (m.map fun l => decInt l.toDimacs) ++ [48]) := by
  unfold valueLine
  have : ∀ (k : List Lit), k.flatMap (fun l => ascii " " ++ decInt l.toDimacs) ++ ascii " 0" =
      [32] ++ (sepd 32 (k.map fun l => decInt l.toDimacs) ++ [48]) := by
    intro k
    induction k with
    | nil => rfl
    | cons l k ih =>
      rw [List.flatMap_cons, List.append_assoc, ih]
      have : ascii " " = [32] := by decide
      simp [sepd, this]
  rw [List.append_assoc, this]
  have e1 : ascii "v " = ascii "v" ++ [32] := by decide
  rw [e1, List.append_assoc]

theorem valueLine_noLF (m : List Lit) : (10 : UInt8) ∉ valueLine m := by
  unfold valueLine
  intro h
  rcases List.mem_append.1 h with h | h
  · rcases List.mem_append.1 h with h | h
    · revert h; decide
    · obtain ⟨l, _, h⟩ := List.mem_flatMap.1 h
      rcases List.mem_append.1 h with h | h
      · revert h; decide
      · exact (decInt_noSpace _).2 h
  · revert h; decide

theorem valueLine_read (m : List Lit) : (split 32 ((valueLine m).drop 2)).mapM int? = some (m.map Lit.toDimacs ++ [0]) := by
  have e : (valueLine m).drop 2 = sepd 32 (m.map fun l => decInt l.toDimacs) ++ [48] := by
    rw [valueLine_eq]; rfl
  rw [e, split_sepd (by
    intro w hw
    obtain ⟨l, _, rfl⟩ := List.mem_map.1 hw
    exact (decInt_noSpace _).1)]
  have e2 : split (32 : UInt8) [48] = [[48]] := by decide
  rw [e2, List.mapM_append, mapM_map_some (f := int?) (g := fun l : Lit => decInt l.toDimacs) (k := Lit.toDimacs) m (fun x => int?_decInt _)]
  have e3 : [([48] : Bytes)].mapM int? = some [0] := by decide
  rw [e3]
  rfl

theorem help_lines : linesWith "s " help = [] ∧ linesWith "v " help = [] := by
  decide +kernel

/-- What a run does after reading the input. -/
inductive Solved (e : Solver.Env α) (fuel : Nat) (args : Args) (input : Source) : Option (List Lit) → Prop
  | mk {p : DimacsParser} {fs : List CnfFormula} {s s' : Solver.St α} {b : Bool} {m : Option (List Lit)} :
    DimacsParser.parseIncremental .new (input.chunks.map (·, true)) true = (p, fs, none) →
    addFormulas e (Solver.St.new e) fs = .ok s → s.solve e fuel = .ok (s', b) →
    args.fault = false → m.isSome = b → (b = true → s'.modelLits = some m) → Solved e fuel args input m

/-- The outcomes of a run. -/
inductive Outcome (recip : Config.F32 → Config.F32) (env : Config.SolverConfig → Solver.Env α) (fuel : Nat) (args : Args) :
    Bytes → Nat → Prop
  | help : args.optionHelp = true → Outcome recip env fuel args help 0
  | failed {pre : Bytes} : Comments pre → Outcome recip env fuel args pre 1
  | unknown {pre : Bytes} : Comments pre → args.fault = true →
    Outcome recip env fuel args (pre ++ (ascii "s UNKNOWN" ++ [10])) 0
  | unsat {pre : Bytes} {u : Config.Update} {c : Config.St} {i : Source} : Comments pre → mergeConfigs {} args.configs = some u →
    (Config.St.new recip).configure recip u = some (c, .ok ()) → args.input = some i → i.fails = false → Solved (env c.config) fuel args i none →
    Outcome recip env fuel args (pre ++ (ascii "s UNSATISFIABLE" ++ [10])) 20
  | sat {pre : Bytes} {u : Config.Update} {c : Config.St} {i : Source} {m : List Lit} : Comments pre → mergeConfigs {} args.configs = some u →
    (Config.St.new recip).configure recip u = some (c, .ok ()) → args.input = some i → i.fails = false → Solved (env c.config) fuel args i (some m) →
    Outcome recip env fuel args (pre ++ ((ascii "s SATISFIABLE" ++ [10]) ++ (valueLine m ++ [10]))) 10

theorem answer_cases {e : Solver.Env α} {fuel : Nat} {log : Log} {fault : Bool} {s : Solver.St α} {out : Bytes} {code : Nat}
    (h : answer e fuel log fault s = some (out, code)) :
    (fault = true ∧ out = logLine log.error ++ (ascii "s UNKNOWN" ++ [10]) ∧ code = 0) ∨
    (fault = false ∧ ∃ s', s.solve e fuel = .ok (s', false) ∧ out = ascii "s UNSATISFIABLE" ++ [10] ∧ code = 20) ∨
    (fault = false ∧ ∃ s' m, s.solve e fuel = .ok (s', true) ∧ s'.modelLits = some (some m) ∧
      out = (ascii "s SATISFIABLE" ++ [10]) ++ (valueLine m ++ [10]) ∧ code = 10) := by
  unfold answer at h
  cases fault with
  | true =>
    rw [if_pos rfl] at h
    injection h with h; injection h with h1 h2
    exact .inl ⟨rfl, by rw [← h1]; simp, h2.symm⟩
  | false =>
    rw [if_neg (by simp)] at h
    cases hs : s.solve e fuel with
    | error x => rw [hs] at h; cases h
    | ok r =>
      obtain ⟨s', b⟩ := r
      rw [hs] at h
      cases b with
      | false =>
        injection h with h; injection h with h1 h2
        exact .inr (.inl ⟨rfl, s', rfl, h1.symm, h2.symm⟩)
      | true =>
        simp only at h
        split at h
        · rename_i m hm
          injection h with h; injection h with h1 h2
          refine .inr (.inr ⟨rfl, s', m, rfl, hm, ?_, h2.symm⟩)
          rw [← h1]; simp [valueLine]
        · cases h

theorem run_outcome {recip : Config.F32 → Config.F32} {env : Config.SolverConfig → Solver.Env α} {fuel : Nat} {log : Log} {args : Args}
    (hl : log.OneLine) {out : Bytes} {code : Nat} (h : run recip env fuel log args = some (out, code)) :
    Outcome recip env fuel args out code := by
  unfold run at h
  split at h
  · rename_i hh
    injection h with h; injection h with h1 h2; subst h1; subst h2; exact .help hh
  have hb1 := hl.comments (o := log.banner1) (by simp)
  have hb2 := hl.comments (o := log.banner2) (by simp)
  have hrd := hl.comments (o := log.reading) (by simp)
  have hpr := hl.comments (o := log.proof) (by simp)
  have her := hl.comments (o := log.error) (by simp)
  have hpre := hb1.append hb2
  simp only at h
  split at h
  · injection h with h; injection h with h1 h2; subst h1; subst h2; exact .failed (hpre.append her)
  rename_i u hu
  split at h
  · cases h
  · injection h with h; injection h with h1 h2; subst h1; subst h2; exact .failed (hpre.append her)
  rename_i c hc
  split at h
  · injection h with h; injection h with h1 h2; subst h1; subst h2; exact .failed ((hpre.append hrd).append her)
  rename_i i hi
  have hpre := hpre.append hrd
  generalize logLine log.banner1 ++ logLine log.banner2 ++ logLine log.reading = pre at h hpre
  unfold solveInput at h
  simp only at h
  have go : ∀ pre, Comments pre → (if i.fails = true then some (pre ++ logLine log.error, 1)
      else
        match DimacsParser.parseIncremental .new (i.chunks.map (·, true)) true with
        | (_, fs, err) =>
          match addFormulas (env c.config) (Solver.St.new (env c.config)) fs with
          | .error _ => none
          | .ok s =>
            match err with
            | some _ => some (pre ++ logLine log.error, 1)
            | none =>
              match answer (env c.config) fuel log args.fault s with
              | none => none
              | some (a, code) => some (pre ++ log.solving.flatMap logLine ++ a, code)) = some (out, code) →
      Outcome recip env fuel args out code := by
    intro pre hpre h
    split at h
    · injection h with h; injection h with h1 h2; subst h1; subst h2; exact .failed (hpre.append her)
    rename_i hf
    have hf : i.fails = false := by simpa using hf
    rcases hp : DimacsParser.parseIncremental .new (i.chunks.map (·, true)) true with ⟨p, fs, err⟩
    rw [hp] at h
    simp only at h
    split at h
    · cases h
    rename_i s hs
    cases err with
    | some x =>
      simp only at h
      injection h with h; injection h with h1 h2; subst h1; subst h2; exact .failed (hpre.append her)
    | none =>
      simp only at h
      split at h
      · cases h
      rename_i a code' ha
      injection h with h; injection h with h1 h2; subst h1; subst h2
      have hpre := hpre.append hl.solving
      rcases answer_cases ha with ⟨h1, rfl, rfl⟩ | ⟨h1, s', h2, rfl, rfl⟩ | ⟨h1, s', m, h2, h3, rfl, rfl⟩
      · rw [← List.append_assoc]
        exact .unknown (hpre.append her) h1
      · exact .unsat hpre hu hc hi hf (.mk hp hs h2 h1 rfl (fun k => by cases k))
      · exact .sat hpre hu hc hi hf (.mk hp hs h2 h1 rfl (fun _ => h3))
  split at h
  · exact go pre hpre h
  · split at h
    · split at h
      · exact go _ (hpre.append hpr) h
      · injection h with h; injection h with h1 h2; subst h1; subst h2; exact .failed (hpre.append her)
    · split at h
      · exact go _ (hpre.append hpr) h
      · injection h with h; injection h with h1 h2; subst h1; subst h2; exact .failed ((hpre.append hpr).append her)

theorem Comments.none {tag : String} {a : Bytes} (ht : ascii tag ≠ ascii "c ") (hn : ascii tag ≠ []) (ha : Comments a) :
    linesWith tag a = [] := by
  have := linesWith_eq ht hn ha .nil
  simpa using this

theorem ne_tags : ascii "s " ≠ ascii "c " ∧ ascii "v " ≠ ascii "c " ∧ ascii "s " ≠ [] ∧ ascii "v " ≠ [] := by decide

theorem verdicts_one {pre : Bytes} (h : Comments pre) (t : Bytes) (ht : (10 : UInt8) ∉ ascii "s " ++ t) :
    verdicts (pre ++ (ascii "s " ++ t ++ [10])) = [t] ∧ values (pre ++ (ascii "s " ++ t ++ [10])) = [] := by
  have k := IsLines.one ht
  unfold verdicts values
  rw [linesWith_eq ne_tags.1 ne_tags.2.2.1 h k, linesWith_eq ne_tags.2.1 ne_tags.2.2.2 h k]
  have e : (ascii "s " ++ t).take 2 = ascii "s " := rfl
  have e' : (ascii "s " ++ t).drop 2 = t := rfl
  simp only [List.filterMap_cons, e, e', List.filterMap_nil, if_true]
  refine ⟨trivial, ?_⟩
  rw [if_neg (by decide)]
  rfl

theorem verdicts_sat {pre : Bytes} (h : Comments pre) (m : List Lit) :
    verdicts (pre ++ ((ascii "s SATISFIABLE" ++ [10]) ++ (valueLine m ++ [10]))) = [ascii "SATISFIABLE"] ∧
    values (pre ++ ((ascii "s SATISFIABLE" ++ [10]) ++ (valueLine m ++ [10]))) = [some (m.map Lit.toDimacs ++ [0])] := by
  have k := (IsLines.one (l := ascii "s SATISFIABLE") (by decide)).append (IsLines.one (valueLine_noLF m))
  unfold verdicts values
  rw [linesWith_eq ne_tags.1 ne_tags.2.2.1 h k, linesWith_eq ne_tags.2.1 ne_tags.2.2.2 h k]
  have e : (valueLine m).take 2 = ascii "v " := by rw [valueLine_eq]; rfl
  have e1 : (ascii "s SATISFIABLE").take 2 = ascii "s " := by decide
  have e2 : (ascii "s SATISFIABLE").drop 2 = ascii "SATISFIABLE" := by decide
  simp only [List.singleton_append, List.filterMap_cons, e, e1, e2, List.filterMap_nil, if_true]
  rw [if_neg (by decide), if_neg (by decide)]
  exact ⟨rfl, by simp only [List.map_cons, List.map_nil, valueLine_read]⟩

/-- The messages have no influence on the exit status. -/
theorem run_quiet {α : Type} [LinearOrder α] {recip : Config.F32 → Config.F32} {env : Config.SolverConfig → Solver.Env α} {fuel : Nat}
    {log : Log} {args : Args} {out : Bytes} {code : Nat} (h : run recip env fuel log args = some (out, code)) :
    ∃ out', run recip env fuel {} args = some (out', code) := by
  suffices k : (run recip env fuel log args).map (·.2) = (run recip env fuel {} args).map (·.2) by
    rw [h] at k
    cases hx : run recip env fuel {} args with
    | none => rw [hx] at k; cases k
    | some x => rw [hx] at k; exact ⟨x.1, by rw [show code = x.2 from Option.some.inj k]⟩
  have ha : ∀ e f s, (answer e fuel log f s).map (·.2) = (answer (α := α) e fuel {} f s).map (·.2) := by
    intro e f s
    unfold answer
    split
    · rfl
    · rfl
  have hs : ∀ e i o o', (solveInput (α := α) e fuel log args i o).map (·.2) = (solveInput e fuel {} args i o').map (·.2) := by
    intro e i o o'
    unfold solveInput
    dsimp only
    have go : ∀ o o' : Bytes, Option.map (·.2) (if i.fails then some (o ++ logLine log.error, 1)
        else
          match DimacsParser.parseIncremental .new (i.chunks.map (·, true)) true with
          | (_, fs, err) =>
            match addFormulas e (Solver.St.new e) fs with
            | .error _ => none
            | .ok s =>
              match err with
              | some _ => some (o ++ logLine log.error, 1)
              | none =>
                match answer e fuel log args.fault s with
                | none => none
                | some (a, code) => some (o ++ log.solving.flatMap logLine ++ a, code)) =
        Option.map (·.2) (if i.fails then some (o' ++ logLine ({} : Log).error, 1)
        else
          match DimacsParser.parseIncremental .new (i.chunks.map (·, true)) true with
          | (_, fs, err) =>
            match addFormulas e (Solver.St.new e) fs with
            | .error _ => none
            | .ok s =>
              match err with
              | some _ => some (o' ++ logLine ({} : Log).error, 1)
              | none =>
                match answer e fuel {} args.fault s with
                | none => none
                | some (a, code) => some (o' ++ ({} : Log).solving.flatMap logLine ++ a, code)) := by
      intro o o'
      split
      · rfl
      · generalize DimacsParser.parseIncremental .new (i.chunks.map (·, true)) true = y
        obtain ⟨p, fs, err⟩ := y
        simp only
        cases addFormulas e (Solver.St.new e) fs with
        | error _ => rfl
        | ok s =>
          simp only
          cases err with
          | some _ => rfl
          | none =>
            have := ha e args.fault s
            simp only
            generalize answer e fuel log args.fault s = x at *
            generalize answer e fuel {} args.fault s = y at *
            cases x <;> cases y <;> first | rfl | cases this | simpa using this
    cases args.proof with
    | none => exact go _ _
    | some p =>
      simp only
      split
      · split
        · exact go _ _
        · rfl
      · split
        · exact go _ _
        · rfl
  unfold run
  split
  · rfl
  · dsimp only
    cases mergeConfigs {} args.configs with
    | none => rfl
    | some u =>
      simp only
      split
      · rfl
      · rfl
      · cases args.input with
        | none => rfl
        | some i => exact hs _ _ _ _

theorem Log.quiet_oneLine : ({} : Log).OneLine := by
  unfold Log.OneLine
  simp

end Varisat.Cli
