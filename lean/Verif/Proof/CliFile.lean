import Verif.Model.CliFile
import Verif.Proof.DimacsRange
import Verif.Props.C56_CliDecides
import Verif.Props.C59_Drat
/-! The command line tool with its proof file. -/
namespace Varisat.Cli
open Solver Api
open Checker (Accepting)

variable {α : Type} [LinearOrder α] {e : Solver.Env α} {penv : Out.Env}

/-- The same arguments without the contents of the proof file; `fault` says whether `solve` returns an error. -/
def FileArgs.plain (a : FileArgs) (fault : Bool) : Args where
  optionHelp := a.optionHelp
  configs := a.configs
  input := a.input
  proof := a.proof.map fun p => ⟨match p.1 with | .lrat _ => true | .steps _ => false, p.2⟩
  fault := fault

/-- The format written by the solver. -/
def FileArgs.format (a : FileArgs) : Option Out.Format :=
  match a.proof with
  | some (.steps f, _) => some f
  | _ => none

/-- There is a checker. -/
def FileArgs.checks (a : FileArgs) : Bool :=
  match a.proof with
  | some (.lrat _, _) => true
  | _ => a.check

theorem FileArgs.sess_eq (a : FileArgs) : a.sess = setup a.format a.checks := by
  unfold FileArgs.sess FileArgs.format FileArgs.checks
  split <;> rename_i h <;> rw [h]

/-! ### The answers are those of the solver alone -/

theorem loadJoint_ok : ∀ {cs : List (List Lit)} {q q' : St α × Out.Sess}, loadJoint e penv cs q = .ok q' →
    cs.foldlM (fun s c => s.loadClause e c) q.1 = .ok q'.1
  | [], q, q', h => by cases h; rfl
  | c :: cs, q, q', h => by
    unfold loadJoint at h
    rw [List.foldlM_cons] at h
    cases hj : q.1.joint e penv (.addClause c) q.2 with
    | error x => rw [hj] at h; cases h
    | ok r =>
      obtain ⟨s, o, r, er⟩ := r
      rw [hj] at h
      have h1 := St.step_of_joint hj
      have h2 : q.1.loadClause e c = .ok s := by
        unfold St.step at h1
        simp only at h1
        cases hl : q.1.loadClause e c with
        | error x => rw [hl] at h1; cases h1
        | ok t => rw [hl] at h1; cases h1; rfl
      rw [List.foldlM_cons, h2]
      exact loadJoint_ok (q := (s, o)) h

theorem addFormulasJoint_ok : ∀ {fs : List CnfFormula} {q q' : St α × Out.Sess}, addFormulasJoint e penv fs q = .ok q' →
    addFormulas e q.1 fs = .ok q'.1
  | [], q, q', h => by cases h; rfl
  | f :: fs, q, q', h => by
    unfold addFormulasJoint at h
    unfold addFormulas
    cases hf : f.iter with
    | none => rw [hf] at h; cases h
    | some cs =>
      rw [hf] at h
      simp only at h
      cases hl : loadJoint e penv cs q with
      | error x => rw [hl] at h; cases h
      | ok t =>
        rw [hl] at h
        simp only [loadJoint_ok hl]
        exact addFormulasJoint_ok h

theorem answerJoint_ok {fuel : Nat} {log : Log} {s : St α} {o o' : Out.Sess} {a : Bytes} {code : Nat}
    (h : answerJoint e penv fuel log s o = some (a, code, o')) : ∃ fault, answer e fuel log fault s = some (a, code) := by
  unfold answerJoint at h
  cases hj : s.joint e penv (.solve fuel) o with
  | error x => rw [hj] at h; cases h
  | ok r =>
    obtain ⟨s', o1, r, er⟩ := r
    rw [hj] at h
    cases er with
    | some x =>
      cases h
      exact ⟨true, rfl⟩
    | none =>
      obtain ⟨b, h1, rfl⟩ := solve_step (St.step_of_joint hj)
      refine ⟨false, ?_⟩
      unfold answer
      rw [h1]
      cases b with
      | false => cases h; rfl
      | true =>
        simp only [if_true, List.cons.injEq, and_true, one_ne_zero, if_false] at h
        simp only [Bool.false_eq_true, if_false]
        split at h
        · rename_i m hm; cases h; rw [hm]
        · cases h

theorem finish_ok {kind : Option ProofKind} {out out' : Bytes} {code code' : Nat} {o : Out.Sess} {file : Option Bytes}
    (h : finish penv kind out code o = some (out', code', file)) : out = out' ∧ code = code' ∧ dropped penv kind o = some file := by
  unfold finish at h
  split at h
  · cases h
  · rename_i f hf; cases h; exact ⟨rfl, rfl, hf⟩

theorem solveFile_ok {fuel : Nat} {log : Log} {args : FileArgs} {i : Source} {out out' : Bytes} {code : Nat} {file : Option Bytes}
    (h : solveFile e penv fuel log args i out = some (out', code, file)) :
    ∃ fault, solveInput e fuel log (args.plain fault) i out = some (out', code) := by
  unfold solveFile at h
  have go : ∀ kind out, (if i.fails then finish penv kind (out ++ logLine log.error) 1 args.sess
      else
        match DimacsParser.parseIncremental .new (i.chunks.map (·, true)) true with
        | (_, fs, err) =>
          match addFormulasJoint e penv fs (Solver.St.new e, args.sess) with
          | .error _ => none
          | .ok (s, o) =>
            match err with
            | some _ => finish penv kind (out ++ logLine log.error) 1 o
            | none =>
              match answerJoint e penv fuel log s o with
              | none => none
              | some (a, code, o) => finish penv kind (out ++ log.solving.flatMap logLine ++ a) code o) = some (out', code, file) →
      ∃ fault, (if i.fails then some (out ++ logLine log.error, 1)
      else
        match DimacsParser.parseIncremental .new (i.chunks.map (·, true)) true with
        | (_, fs, err) =>
          match addFormulas e (Solver.St.new e) fs with
          | .error _ => none
          | .ok s =>
            match err with
            | some _ => some (out ++ logLine log.error, 1)
            | none =>
              match answer e fuel log fault s with
              | none => none
              | some (a, code) => some (out ++ log.solving.flatMap logLine ++ a, code)) = some (out', code) := by
    intro kind out h
    split at h
    · obtain ⟨rfl, rfl, -⟩ := finish_ok h
      exact ⟨false, by rw [if_pos (by assumption)]⟩
    · rename_i hf
      rcases hp : DimacsParser.parseIncremental .new (i.chunks.map (·, true)) true with ⟨p, fs, err⟩
      rw [hp] at h
      simp only at h
      cases hj : addFormulasJoint e penv fs (Solver.St.new e, args.sess) with
      | error x => rw [hj] at h; cases h
      | ok q =>
        obtain ⟨s, o⟩ := q
        rw [hj] at h
        have h1 := addFormulasJoint_ok hj
        simp only at h h1
        cases err with
        | some x =>
          obtain ⟨rfl, rfl, -⟩ := finish_ok h
          exact ⟨false, by rw [if_neg hf]; simp only [h1]⟩
        | none =>
          simp only at h
          split at h
          · cases h
          · rename_i a code' o' ha
            obtain ⟨fault, k⟩ := answerJoint_ok ha
            obtain ⟨rfl, rfl, -⟩ := finish_ok h
            exact ⟨fault, by rw [if_neg hf]; simp only [h1, k]⟩
  unfold solveInput
  simp only at h
  cases hp : args.proof with
  | none =>
    rw [hp] at h
    obtain ⟨fault, k⟩ := go _ out h
    refine ⟨fault, ?_⟩
    simp only [FileArgs.plain, hp, Option.map_none]
    exact k
  | some p =>
    obtain ⟨kind, creates⟩ := p
    rw [hp] at h
    cases kind with
    | lrat b =>
      cases creates with
      | true =>
        obtain ⟨fault, k⟩ := go _ (out ++ logLine log.proof) h
        refine ⟨fault, ?_⟩
        simp only [FileArgs.plain, hp, Option.map_some, if_true]
        exact k
      | false =>
        cases h
        exact ⟨false, by simp only [FileArgs.plain, hp, Option.map_some, if_true, Bool.false_eq_true, if_false]⟩
    | steps f =>
      cases creates with
      | true =>
        obtain ⟨fault, k⟩ := go _ (out ++ logLine log.proof) h
        refine ⟨fault, ?_⟩
        simp only [FileArgs.plain, hp, Option.map_some, if_true, Bool.false_eq_true, if_false]
        exact k
      | false =>
        cases h
        exact ⟨false, by simp only [FileArgs.plain, hp, Option.map_some, Bool.false_eq_true, if_false]⟩

theorem runFile_ok {recip : Config.F32 → Config.F32} {env : Config.SolverConfig → Solver.Env α} {fuel : Nat} {log : Log} {args : FileArgs}
    {out : Bytes} {code : Nat} {file : Option Bytes} (h : runFile recip env penv fuel log args = some (out, code, file)) :
    ∃ fault, run recip env fuel log (args.plain fault) = some (out, code) := by
  unfold runFile at h
  unfold run
  simp only [FileArgs.plain]
  split at h
  · rename_i hh; cases h; exact ⟨false, if_pos hh⟩
  rename_i hh
  have hh : args.optionHelp = false := by simpa using hh
  simp only [hh, Bool.false_eq_true, if_false]
  simp only at h
  split at h
  · rename_i hm; cases h; exact ⟨false, by rw [hm]⟩
  rename_i u hm
  rw [hm]
  simp only
  split at h
  · cases h
  · rename_i hc; cases h; exact ⟨false, by rw [hc]⟩
  rename_i c hc
  rw [hc]
  simp only
  split at h
  · rename_i hi; cases h; exact ⟨false, by rw [hi]⟩
  rename_i i hi
  rw [hi]
  exact solveFile_ok h

/-! ### Without failing writes -/

theorem addFormulas_flat : ∀ {fs : List CnfFormula} {css : List (List (List Lit))} {s : St α}, fs.mapM CnfFormula.iter = some css →
    addFormulas e s fs = css.flatten.foldlM (fun s c => s.loadClause e c) s
  | [], css, s, h => by
    obtain rfl : [] = css := by simpa using h
    rfl
  | f :: fs, css, s, h => by
    rw [List.mapM_cons] at h
    cases hf : f.iter with
    | none => rw [hf] at h; cases h
    | some cs =>
      rw [hf] at h
      cases hg : fs.mapM CnfFormula.iter with
      | none => rw [hg] at h; cases h
      | some css' =>
        rw [hg] at h
        obtain rfl : cs :: css' = css := by simpa using h
        unfold addFormulas
        rw [hf, List.flatten_cons, List.foldlM_append]
        simp only
        cases hk : cs.foldlM (fun s c => s.loadClause e c) s with
        | error x => rfl
        | ok t => exact addFormulas_flat hg

theorem addFormulasJoint_flat : ∀ {fs : List CnfFormula} {css : List (List (List Lit))} {q : St α × Out.Sess}, fs.mapM CnfFormula.iter = some css →
    addFormulasJoint e penv fs q = loadJoint e penv css.flatten q
  | [], css, q, h => by
    obtain rfl : [] = css := by simpa using h
    rfl
  | f :: fs, css, q, h => by
    rw [List.mapM_cons] at h
    cases hf : f.iter with
    | none => rw [hf] at h; cases h
    | some cs =>
      rw [hf] at h
      cases hg : fs.mapM CnfFormula.iter with
      | none => rw [hg] at h; cases h
      | some css' =>
        rw [hg] at h
        obtain rfl : cs :: css' = css := by simpa using h
        unfold addFormulasJoint
        rw [hf, List.flatten_cons]
        have : loadJoint e penv (cs ++ css'.flatten) q = loadJoint e penv cs q >>= fun q => loadJoint e penv css'.flatten q := by
          unfold loadJoint; rw [List.foldlM_append]
        rw [this]
        simp only
        cases hk : loadJoint e penv cs q with
        | error x => rfl
        | ok t => exact addFormulasJoint_flat hg

theorem clauses_noAsm (cs : List (List Lit)) : NoAsm (cs.map fun c => (Call.addClause c, ([] : List Nat))) := fun y hy ls hl => by
  obtain ⟨c, -, rfl⟩ := List.mem_map.1 hy; cases hl

theorem clauses_noSolve (cs : List (List Lit)) : NoSolve (cs.map fun c => (Call.addClause c, ([] : List Nat))) := fun y hy => by
  obtain ⟨c, -, rfl⟩ := List.mem_map.1 hy; exact fun h => by cases h

/-- Adding clauses works with the proof output as it does without. -/
theorem load_joint (ha : Accepting penv.chk) (he : e.Ok) {f : Option Out.Format} {check : Bool} (cs : List (List Lit)) :
    ∀ {t : St α}, cs.foldlM (fun s c => s.loadClause e c) (St.new e) = .ok t → Limits f t →
    ∃ o, loadJoint e penv cs (St.new e, setup f check) = .ok (t, o) ∧ Joint penv f check t o (cs.map fun c => (.addClause c, [])) := by
  induction cs using List.reverseRecOn with
  | nil => intro t h _; cases h; exact ⟨_, rfl, .new e⟩
  | append_singleton cs c ih =>
    intro t h l
    rw [List.foldlM_append] at h
    cases hk : cs.foldlM (fun s c => s.loadClause e c) (St.new e) with
    | error x => rw [hk] at h; cases h
    | ok s =>
      rw [hk] at h
      have h : (s.loadClause e c >>= fun s => pure s) = .ok t := h
      have hl : s.loadClause e c = .ok t := by
        cases hl : s.loadClause e c with
        | error x => rw [hl] at h; cases h
        | ok u => rw [hl] at h; cases h; rfl
      have hstep : s.step e (.addClause c) = .ok (t, []) := by unfold St.step; simp only [hl]; rfl
      obtain ⟨t', k1, x⟩ := load_total he cs (pre := []) (Exec.new e)
      rw [hk] at k1
      cases k1
      rw [List.nil_append] at x
      obtain ⟨o, j1, j2⟩ := ih hk (l.of_step x hstep)
      have x' : Exec t ((cs ++ [c]).map fun c => (.addClause c, [])) := by
        simpa [Op.call] using Exec.call (op := .addClause c) e x he hstep
      obtain ⟨o', er, q1, -⟩ := C51.self_check_partial ha j2 he hstep ⟨l.vars, l.net⟩ (C59.noSingle x' (clauses_noAsm _))
        (fun _ => by simpa [Op.call] using C59.oneShot (cs := cs ++ [c]) (.inl rfl))
      obtain rfl : er = none := by
        have q1 := q1
        unfold St.joint at q1
        rw [hstep] at q1
        simp only at q1
        split at q1
        · cases q1
        · cases q1; rfl
      refine ⟨o', ?_, by simpa [Op.call] using Joint.call e j2 he q1⟩
      have : loadJoint e penv (cs ++ [c]) (St.new e, setup f check) =
          loadJoint e penv cs (St.new e, setup f check) >>= fun q => loadJoint e penv [c] q := by
        unfold loadJoint; rw [List.foldlM_append]
      rw [this, j1]
      show loadJoint e penv [c] (s, o) = _
      unfold loadJoint
      rw [List.foldlM_cons, q1]
      rfl

/-- A state of the solver after adding the clauses and one call of `solve`. -/
def Reached (e : Solver.Env α) (cs : List (List Lit)) (s' : St α) : Prop :=
  ∃ n s b, cs.foldlM (fun s c => s.loadClause e c) (St.new e) = .ok s ∧ s.solve e n = .ok (s', b)

/-- At most 2^32 clauses are known at any time while solving. -/
def NetFits (e : Solver.Env α) (cs : List (List Lit)) : Prop := ∀ s', Reached e cs s' → ∀ M, M <+: s'.log → netClauses M ≤ 2 ^ 32

/-- Adding clauses, one call of `solve`, `close_proof`. -/
theorem session_total (ha : Accepting penv.chk) (hio : ∀ n, penv.io n = true) (he : e.Ok) (f : Option Out.Format) (check : Bool)
    {cs : List (List Lit)} (hv : ∀ c ∈ cs, ∀ l ∈ c, l.var < 2 ^ 28) (hnet : f = some .varisat → NetFits e cs) :
    ∃ N s o s' o' o'' r, loadJoint e penv cs (St.new e, setup f check) = .ok (s, o) ∧ Exec s (cs.map fun c => (.addClause c, [])) ∧
      (∀ n, N ≤ n → s.joint e penv (.solve n) o = .ok (s', o', [r], none)) ∧
      Joint penv f check s' o' ((cs.map fun c => (.addClause c, [])) ++ [(.solve, [r])]) ∧ C51.Small f s' ∧
      Out.close penv o' = some (o'', .unit) ∧ o'.error = none ∧ Reached e cs s' ∧ (r = 0 ∨ r = 1) ∧ (r = 0 ↔ Unsat cs) := by
  obtain ⟨s, h1, x⟩ := load_total he cs (pre := []) (Exec.new e)
  rw [List.nil_append] at x
  obtain ⟨N, s', r, k1, k2, k3⟩ := C54.decides x (plain_clauses cs) he
  rw [added_clauses, assumed_clauses] at k3
  have x' : Exec s' ((cs.map fun c => (.addClause c, [])) ++ [(.solve, r)]) := .call (op := .solve N) e x he (k1 N (Nat.le_refl _))
  have hasm' : NoAsm ((cs.map fun c => (.addClause c, [])) ++ [(.solve, r)]) := (C59.oneShot (.inr ⟨r, rfl⟩)).noAsm
  obtain ⟨b, q1, rfl⟩ := solve_step (k1 N (Nat.le_refl _))
  have hsm : C51.Small f s' := by
    refine ⟨?_, fun hf => hnet hf s' ⟨N, s, b, h1, q1⟩⟩
    have := C59.small x (fun c hc l hl => Nat.lt_trans (hv c hc l hl) (by decide))
    obtain ⟨a, ids, hr, hi⟩ := x.inv
    rw [hi.solve_slen q1]
    exact this
  have l' : Limits f s' := ⟨hsm.1, hsm.2, x'.fine_of_noAsm hasm'⟩
  obtain ⟨o, h2, j⟩ := load_joint (check := check) ha he cs h1 (l'.of_step x (k1 N (Nat.le_refl _)))
  have hstep : ∀ n, N ≤ n → ∃ o', s.joint e penv (.solve n) o = .ok (s', o', [if b then 1 else 0], none) := by
    intro n hn
    obtain ⟨o', er, j1, j2⟩ := C51.self_check_partial ha j he (k1 n hn) hsm (C59.noSingle x' hasm') (fun _ => C59.oneShot (.inr ⟨_, rfl⟩))
    rcases j2 with rfl | ⟨-, m, j2⟩
    · exact ⟨o', j1⟩
    · rw [hio] at j2; cases j2
  have hsame : ∀ n, N ≤ n → s.joint e penv (.solve n) o = s.joint e penv (.solve N) o := by
    intro n hn
    unfold St.joint
    rw [k1 n hn, k1 N (Nat.le_refl _)]
  obtain ⟨o1, j1⟩ := hstep N (Nat.le_refl _)
  have xj : Joint penv f check s' o1 ((cs.map fun c => (.addClause c, [])) ++ [(.solve, [if b then 1 else 0])]) := .call (op := .solve N) e j he j1
  obtain ⟨-, -, s0, -, hF, -⟩ := xj.follows ha l'
  obtain ⟨o2, hc⟩ := Out.close_total hio hF (fun hf => l'.net hf _ (List.prefix_refl _))
  have her : o1.error = none := by
    cases her : o1.error with
    | none => rfl
    | some z =>
      obtain ⟨-, n, k⟩ := hF.why z her
      rw [hio] at k; cases k
  refine ⟨N, s, o, s', o1, o2, if b then 1 else 0, h2, x, fun n hn => by rw [hsame n hn, j1], xj, hsm, hc, her, ⟨N, s, b, h1, q1⟩, by simpa using k2, ?_⟩
  cases b with
  | false =>
    simp only [Bool.false_eq_true, if_false, true_iff]
    intro τ hτ
    exact absurd (k3.2 ⟨τ, hτ, fun l hl => by cases hl⟩) (by simp)
  | true =>
    obtain ⟨τ, hτ, -⟩ := k3.1 rfl
    exact ⟨(fun h => by cases h), fun hu => absurd hτ (hu τ)⟩

/-- Closing does not give anything to the processors. -/
theorem close_out {o o' : Out.Sess} {c : Checker.St} {ret : Out.Ret} (hf : o.proof.format = none) (her : o.error = none) (hc : o.proof.checker = some c)
    (h : Out.close penv o = some (o', ret)) : ∃ c', o'.proof.checker = some c' ∧ c'.out = c.out := by
  have h1 : Out.addStep penv o .end_ = some { o with proof := { o.proof with checker := some { c with step := c.step + 1, ended := true } } } := by
    unfold Out.addStep
    rw [if_neg (by simp [her])]
    unfold Out.writeOut
    rw [hf]
    simp only
    unfold Out.tell
    rw [hc]
    rfl
  unfold Out.close Out.closeOutput at h
  rw [h1] at h
  simp only [Out.flush, hf, Option.isSome_none, Bool.false_eq_true, if_false, Out.takeError, her] at h
  cases h
  exact ⟨_, rfl, rfl⟩

/-- A file that can be parsed, in the parts the reader delivers. -/
theorem parts {i : Source} {f : CnfFormula} {cs : List (List Lit)} (hf : DimacsParser.parse [i.chunks.flatten] = .ok f) (hcs : f.iter = some cs) :
    ∃ p fs css, DimacsParser.parseIncremental .new (i.chunks.map (·, true)) true = (p, fs, none) ∧ fs.mapM CnfFormula.iter = some css ∧ css.flatten = cs := by
  obtain ⟨k1, _, _, css, rest, k4, k5, k6, k7⟩ := C05.exactly_once (i.chunks.map (·, true)) true
  rcases hp : DimacsParser.parseIncremental .new (i.chunks.map (·, true)) true with ⟨p, fs, err⟩
  rw [hp] at k1 k4
  cases err with
  | some x =>
    exfalso
    have e1 : (i.chunks.map (·, true)).map (fun c => (c.1, false)) = i.chunks.map (·, false) := by simp
    rw [e1, DimacsParser.parseIncremental_whole _ .new rfl] at k1
    unfold DimacsParser.parse at hf
    rw [DimacsParser.parseIncremental_whole [_] .new rfl] at hf
    simp only [List.flatten_cons, List.flatten_nil, List.append_nil] at hf
    generalize DimacsParser.whole .new i.chunks.flatten = z at hf k1
    obtain ⟨z1, z2, z3⟩ := z
    simp only at k1
    subst k1
    cases hf
  | none =>
    obtain ⟨f', css', j1, j2, j3⟩ := C05.taken_is_parse _ p fs hp
    rw [List.map_map, show ((fun x => x.1) ∘ fun x : Bytes => (x, true)) = id from rfl, List.map_id, hf] at j1
    obtain rfl : f = f' := by injection j1
    rw [hcs] at j3
    exact ⟨p, fs, css', rfl, j2, (Option.some.inj j3).symm⟩

theorem solveFile_good (ha : Accepting penv.chk) (hio : ∀ n, penv.io n = true) (he : e.Ok) (log : Log) {args : FileArgs} {i : Source} {f : CnfFormula}
    {cs : List (List Lit)} (hi : i.fails = false) (hp : ∀ p, args.proof = some p → p.2 = true) (hf : DimacsParser.parse [i.chunks.flatten] = .ok f)
    (hcs : f.iter = some cs) (hnet : args.format = some .varisat → NetFits e cs) (out : Bytes) :
    ∃ (N : Nat) (out' : Bytes) (code : Nat) (s' : St α) (o' o'' : Out.Sess) (r : Nat), (∀ n, N ≤ n → solveFile e penv n log args i out = finish penv (args.proof.map (·.1)) out' code o' ∧
        solveInput e n log (args.plain false) i out = some (out', code)) ∧
      Joint penv args.format args.checks s' o' ((cs.map fun c => (.addClause c, [])) ++ [(.solve, [r])]) ∧ C51.Small args.format s' ∧
      Out.close penv o' = some (o'', .unit) ∧ o'.error = none ∧ Reached e cs s' ∧ (r = 0 ∧ code = 20 ∨ r = 1 ∧ code = 10) ∧ (r = 0 ↔ Unsat cs) := by
  obtain ⟨p, fs, css, a1, a2, a3⟩ := parts hf hcs
  obtain ⟨N, s, o, s', o', o'', r, k1, k2, k3, k4, k5, k6, k7, k7', k8, k9⟩ := session_total (f := args.format) (check := args.checks) ha hio he
    (DimacsParser.parse_range hf hcs) hnet
  obtain ⟨b1, b2⟩ : (addFormulasJoint e penv fs (St.new e, args.sess) = .ok (s, o)) ∧ addFormulas e (St.new e) fs = .ok s := by
    rw [addFormulas_flat a2, addFormulasJoint_flat a2, a3, FileArgs.sess_eq]
    exact ⟨k1, loadJoint_ok k1⟩
  obtain ⟨a, code, c1, c2⟩ : ∃ a code, (∀ n, N ≤ n → answerJoint e penv n log s o = some (a, code, o') ∧ answer e n log false s = some (a, code)) ∧
      (r = 0 ∧ code = 20 ∨ r = 1 ∧ code = 10) := by
    have hs : ∀ n, N ≤ n → ∃ b : Bool, s.solve e n = .ok (s', b) ∧ [r] = [if b then 1 else 0] := fun n hn => solve_step (St.step_of_joint (k3 n hn))
    rcases k8 with rfl | rfl
    · refine ⟨ascii "s UNSATISFIABLE" ++ [10], 20, fun n hn => ⟨?_, ?_⟩, .inl ⟨rfl, rfl⟩⟩
      · unfold answerJoint
        rw [k3 n hn]
        rfl
      · obtain ⟨b, q1, q2⟩ := hs n hn
        obtain rfl : b = false := by cases b <;> simp at q2 ⊢
        unfold answer
        rw [q1]
        rfl
    · obtain ⟨m, hm⟩ := C55.model_some_partial (h1 := cs.map fun c => (.addClause c, [])) (h2 := []) k4.exec (not_found_clauses cs)
        (fun y hy => by cases hy) (fun p y q h => by simp at h)
      refine ⟨ascii "s SATISFIABLE" ++ [10] ++ ascii "v" ++ m.flatMap (fun l => ascii " " ++ decInt l.toDimacs) ++
          ascii " 0" ++ [10], 10, fun n hn => ⟨?_, ?_⟩, .inr ⟨rfl, rfl⟩⟩
      · unfold answerJoint
        rw [k3 n hn]
        simp only [hm]
        rfl
      · obtain ⟨b, q1, q2⟩ := hs n hn
        obtain rfl : b = true := by cases b <;> simp at q2 ⊢
        unfold answer
        rw [q1]
        simp only [hm]
        rfl
  have go : ∀ out n, N ≤ n → (if i.fails then finish penv (args.proof.map (·.1)) (out ++ logLine log.error) 1 args.sess
      else
        match DimacsParser.parseIncremental .new (i.chunks.map (·, true)) true with
        | (_, fs, err) =>
          match addFormulasJoint e penv fs (Solver.St.new e, args.sess) with
          | .error _ => none
          | .ok (s, o) =>
            match err with
            | some _ => finish penv (args.proof.map (·.1)) (out ++ logLine log.error) 1 o
            | none =>
              match answerJoint e penv n log s o with
              | none => none
              | some (a, code, o) => finish penv (args.proof.map (·.1)) (out ++ log.solving.flatMap logLine ++ a) code o) =
        finish penv (args.proof.map (·.1)) (out ++ log.solving.flatMap logLine ++ a) code o' ∧
      (if i.fails then some (out ++ logLine log.error, 1)
      else
        match DimacsParser.parseIncremental .new (i.chunks.map (·, true)) true with
        | (_, fs, err) =>
          match addFormulas e (Solver.St.new e) fs with
          | .error _ => none
          | .ok s =>
            match err with
            | some _ => some (out ++ logLine log.error, 1)
            | none =>
              match answer e n log false s with
              | none => none
              | some (a, code) => some (out ++ log.solving.flatMap logLine ++ a, code)) =
        some (out ++ log.solving.flatMap logLine ++ a, code) := by
    intro out n hn
    simp only [hi, Bool.false_eq_true, if_false, a1, b1, b2, (c1 n hn).1, (c1 n hn).2]
    exact ⟨trivial, trivial⟩
  unfold solveFile solveInput
  simp only
  cases hpr : args.proof with
  | none =>
    rw [hpr] at go
    exact ⟨N, out ++ log.solving.flatMap logLine ++ a, code, s', o', o'', r, fun n hn => ⟨(go out n hn).1, by simp only [FileArgs.plain, hpr, Option.map_none]; exact (go out n hn).2⟩,
      k4, k5, k6, k7, k7', c2, k9⟩
  | some pr =>
    obtain ⟨kind, creates⟩ := pr
    obtain rfl : creates = true := hp _ hpr
    rw [hpr] at go
    refine ⟨N, out ++ logLine log.proof ++ log.solving.flatMap logLine ++ a, code, s', o', o'', r, fun n hn => ⟨?_, ?_⟩, k4, k5, k6, k7, k7', c2, k9⟩
    · cases kind <;> exact (go (out ++ logLine log.proof) n hn).1
    · cases kind <;> (simp only [FileArgs.plain, hpr, Option.map_some, if_true, Bool.false_eq_true, if_false]; exact (go _ n hn).2)

/-- Adding clauses always works and stays within the bounds. -/
theorem load_limits (he : e.Ok) (f : Option Out.Format) {cs : List (List Lit)} (hv : ∀ c ∈ cs, ∀ l ∈ c, l.var < 2 ^ 28)
    (hnet : f = some .varisat → NetFits e cs) :
    ∃ s, cs.foldlM (fun s c => s.loadClause e c) (St.new e) = .ok s ∧ Exec s (cs.map fun c => (.addClause c, [])) ∧ Limits f s := by
  obtain ⟨s, h1, x⟩ := load_total he cs (pre := []) (Exec.new e)
  rw [List.nil_append] at x
  obtain ⟨N, s', r, k1, -, -⟩ := C54.decides x (plain_clauses cs) he
  obtain ⟨b, q1, rfl⟩ := solve_step (k1 N (Nat.le_refl _))
  have hg : s.log <+: s'.log := by
    obtain ⟨a, ids, hr, hi⟩ := x.inv
    exact (hi.step_grows (k1 N (Nat.le_refl _))).2
  exact ⟨s, h1, x, C59.small x (fun c hc l hl => Nat.lt_trans (hv c hc l hl) (by decide)), fun hf M hM => hnet hf s' ⟨N, s, b, h1, q1⟩ M (hM.trans hg),
    x.fine_of_noAsm (clauses_noAsm cs)⟩

/-- The file is complete when the solver is dropped. -/
theorem dropped_total {args : FileArgs} {s : St α} {o o' : Out.Sess} {h : Hist} (x : Joint penv args.format args.checks s o h)
    (hasm : NoAsm h) (hs : C51.Small args.format s) (hp : Plain (before h)) (hc : Out.close penv o = some (o', .unit)) :
    ∃ file, dropped penv (args.proof.map (·.1)) o = some file := by
  unfold dropped
  rw [hc]
  simp only
  cases hpr : args.proof with
  | none => exact ⟨_, rfl⟩
  | some p =>
    obtain ⟨kind, b⟩ := p
    cases kind with
    | lrat binary => exact ⟨_, rfl⟩
    | steps g =>
      have hfm : args.format = some g := by unfold FileArgs.format; rw [hpr]
      rw [hfm] at x hs
      simp only [Option.map_some]
      by_cases hg : g = .varisat
      · subst hg
        cases o'.files.getLast? with
        | none => exact ⟨_, rfl⟩
        | some f => exact ⟨_, rfl⟩
      · obtain ⟨file, lines, h1, h2, h3, -⟩ := C59.file_partial hg x hasm hs hp hc
        rw [h1]
        simp only [List.getLast?_append_of_ne_nil, List.getLast?_concat]
        obtain ⟨-, bytes, h4, -⟩ := h3
        rw [h2] at h4
        cases g with
        | varisat => exact absurd rfl hg
        | drat => exact ⟨some bytes, by simpa using congrArg (Option.map some) h4⟩
        | binaryDrat => exact ⟨some bytes, by simpa using congrArg (Option.map some) h4⟩

/-- The clauses handed to the solver: all of them, or those read before the error. -/
def Taken (i : Source) (cs : List (List Lit)) : Prop :=
  ∃ css, (DimacsParser.parseIncremental .new (i.chunks.map (·, true)) true).2.1.mapM CnfFormula.iter = some css ∧ css.flatten = cs

theorem taken_range {i : Source} {cs : List (List Lit)} (h : Taken i cs) : ∀ c ∈ cs, ∀ l ∈ c, l.var < 2 ^ 28 := by
  obtain ⟨css, h1, rfl⟩ := h
  rcases hp : DimacsParser.parseIncremental .new (i.chunks.map (·, true)) true with ⟨p, fs, err⟩
  rw [hp] at h1
  have hr := DimacsParser.incremental_range DimacsParser.Ranged.new hp
  clear hp
  simp only at h1
  induction fs generalizing css with
  | nil =>
    obtain rfl : [] = css := by simpa using h1
    intro c hc; cases hc
  | cons f fs ih =>
    rw [List.mapM_cons] at h1
    cases hf : f.iter with
    | none => rw [hf] at h1; cases h1
    | some cs =>
      rw [hf] at h1
      cases hg : fs.mapM CnfFormula.iter with
      | none => rw [hg] at h1; cases h1
      | some css' =>
        rw [hg] at h1
        obtain rfl : cs :: css' = css := by simpa using h1
        intro c hc l hl
        rw [List.flatten_cons] at hc
        rcases List.mem_append.1 hc with hc | hc
        · exact hr f (by simp) l (DimacsParser.iter_mem hf c hc l hl)
        · exact ih css' hg (fun f' hf' => hr f' (by simp [hf'])) c hc l hl

/-- With the proof output the run from the opened input on is the one without. -/
theorem solveFile_total (ha : Accepting penv.chk) (hio : ∀ n, penv.io n = true) (he : e.Ok) (log : Log) (args : FileArgs) (i : Source)
    (hnet : args.format = some .varisat → ∀ cs, Taken i cs → NetFits e cs) (out : Bytes) :
    ∃ N out' code file, ∀ n, N ≤ n → solveFile e penv n log args i out = some (out', code, file) ∧
      solveInput e n log (args.plain false) i out = some (out', code) := by
  obtain ⟨k1, _, _, css, rest, k4, k5, k6, k7⟩ := C05.exactly_once (i.chunks.map (·, true)) true
  have htk : Taken i css.flatten := ⟨css, k4, rfl⟩
  have hrange := taken_range htk
  obtain ⟨s, b1, b2, b3⟩ := load_limits he args.format hrange (fun hf => hnet hf _ htk)
  obtain ⟨o, b4, b5⟩ := load_joint (check := args.checks) ha he _ b1 b3
  -- closing after an error
  have hclose : ∀ {s : St α} {o : Out.Sess} {h : Hist}, Joint penv args.format args.checks s o h → NoAsm h → Plain (before h) → Limits args.format s →
      ∃ file, dropped penv (args.proof.map (·.1)) o = some file := by
    intro s o h x hasm hp l
    obtain ⟨-, -, s0, -, hF, -⟩ := x.follows ha l
    obtain ⟨o2, hc⟩ := Out.close_total hio hF (fun hf => l.net hf _ (List.prefix_refl _))
    exact dropped_total x hasm ⟨l.vars, l.net⟩ hp hc
  obtain ⟨file0, f0⟩ : ∃ file, dropped penv (args.proof.map (·.1)) args.sess = some file := by
    rw [FileArgs.sess_eq]
    have x0 : Exec (St.new e) (([] : List (List Lit)).map fun c => (.addClause c, [])) := .new e
    exact hclose (.new e) (fun y hy => by cases hy) (fun y hy => by cases hy)
      ⟨C59.small x0 (fun c hc => by cases hc), fun _ M hM => by
        obtain rfl : M = [] := List.prefix_nil.1 hM
        decide, x0.fine_of_noAsm (clauses_noAsm [])⟩
  by_cases hcr : ∀ p, args.proof = some p → p.2 = true
  swap
  · -- the proof file cannot be created
    obtain ⟨kind, hpr⟩ : ∃ kind, args.proof = some (kind, false) := by
      cases hpr : args.proof with
      | none => exact absurd (fun p h => by rw [hpr] at h; cases h) hcr
      | some p =>
        obtain ⟨kind, b⟩ := p
        cases b with
        | true => exact absurd (fun p h => by rw [hpr] at h; cases h; rfl) hcr
        | false => exact ⟨kind, rfl⟩
    unfold solveFile solveInput
    cases kind with
    | lrat b =>
      exact ⟨0, out ++ logLine log.error, 1, none, fun n _ => by simp only [FileArgs.plain, hpr, Option.map_some, if_true, Bool.false_eq_true, if_false, and_self]⟩
    | steps g =>
      exact ⟨0, out ++ logLine log.proof ++ logLine log.error, 1, none, fun n _ => by simp only [FileArgs.plain, hpr, Option.map_some, Bool.false_eq_true, if_false, and_self]⟩
  rcases hp : DimacsParser.parseIncremental .new (i.chunks.map (·, true)) true with ⟨p, fs, err⟩
  rw [hp] at k4
  have hj : addFormulasJoint e penv fs (St.new e, args.sess) = .ok (s, o) := by
    rw [addFormulasJoint_flat k4, FileArgs.sess_eq]; exact b4
  have ha' : addFormulas e (St.new e) fs = .ok s := by rw [addFormulas_flat k4]; exact b1
  obtain ⟨file1, f1⟩ := hclose b5 (clauses_noAsm _) (by rw [before_of (clauses_noSolve _)]; exact plain_clauses _) b3
  by_cases hgood : i.fails = false ∧ err = none
  · obtain ⟨hi, rfl⟩ := hgood
    obtain ⟨f', css', j1, j2, j3⟩ := C05.taken_is_parse _ p fs hp
    rw [List.map_map, show ((fun x => x.1) ∘ fun x : Bytes => (x, true)) = id from rfl, List.map_id] at j1
    obtain ⟨N, out', code, s', o', o'', r, q1, q2, q3, q4, -⟩ := solveFile_good ha hio he log (args := args) hi hcr j1 j3
      (fun hf => hnet hf _ ⟨css', by rw [hp]; exact j2, rfl⟩) out
    obtain ⟨file, q⟩ := dropped_total q2 ((C59.oneShot (.inr ⟨[r], rfl⟩)).noAsm) q3
      (by rw [before_snoc (.inr rfl), before_of (clauses_noSolve _)]; exact plain_clauses _) q4
    refine ⟨N, out', code, file, fun n hn => ⟨?_, (q1 n hn).2⟩⟩
    rw [(q1 n hn).1]
    unfold finish
    rw [q]
  · -- the input cannot be read or is not a formula
    obtain ⟨file, go⟩ : ∃ file, ∀ out n, (if i.fails then finish penv (args.proof.map (·.1)) (out ++ logLine log.error) 1 args.sess
        else
          match DimacsParser.parseIncremental .new (i.chunks.map (·, true)) true with
          | (_, fs, err) =>
            match addFormulasJoint e penv fs (Solver.St.new e, args.sess) with
            | .error _ => none
            | .ok (s, o) =>
              match err with
              | some _ => finish penv (args.proof.map (·.1)) (out ++ logLine log.error) 1 o
              | none =>
                match answerJoint e penv n log s o with
                | none => none
                | some (a, code, o) => finish penv (args.proof.map (·.1)) (out ++ log.solving.flatMap logLine ++ a) code o) =
          some (out ++ logLine log.error, 1, file) ∧
        (if i.fails then some (out ++ logLine log.error, 1)
        else
          match DimacsParser.parseIncremental .new (i.chunks.map (·, true)) true with
          | (_, fs, err) =>
            match addFormulas e (Solver.St.new e) fs with
            | .error _ => none
            | .ok s =>
              match err with
              | some _ => some (out ++ logLine log.error, 1)
              | none =>
                match answer e n log false s with
                | none => none
                | some (a, code) => some (out ++ log.solving.flatMap logLine ++ a, code)) =
          some (out ++ logLine log.error, 1) := by
      cases hi : i.fails with
      | true =>
        refine ⟨file0, fun out n => ⟨?_, rfl⟩⟩
        simp only [if_true, finish, f0]
      | false =>
        cases err with
        | none => exact absurd ⟨hi, rfl⟩ hgood
        | some x =>
          refine ⟨file1, fun out n => ⟨?_, ?_⟩⟩
          · simp only [Bool.false_eq_true, if_false, hp, hj, finish, f1]
          · simp only [Bool.false_eq_true, if_false, hp, ha']
    unfold solveFile solveInput
    cases hpr : args.proof with
    | none =>
      rw [hpr] at go
      refine ⟨0, _, 1, file, fun n _ => ⟨(go out n).1, ?_⟩⟩
      simp only [FileArgs.plain, hpr, Option.map_none]
      exact (go out n).2
    | some pr =>
      obtain ⟨kind, creates⟩ := pr
      obtain rfl : creates = true := hcr _ hpr
      rw [hpr] at go
      refine ⟨0, out ++ logLine log.proof ++ logLine log.error, 1, file, fun n _ => ⟨?_, ?_⟩⟩
      · cases kind <;> exact (go (out ++ logLine log.proof) n).1
      · cases kind <;> (simp only [FileArgs.plain, hpr, Option.map_some, if_true, Bool.false_eq_true, if_false]; exact (go _ n).2)

/-- The options are accepted. -/
theorem configured (recip : Config.F32 → Config.F32) (env : Config.SolverConfig → Solver.Env α) (penv : Out.Env) (log : Log) {args : FileArgs}
    (h1 : args.optionHelp = false) (h2 : (args.plain false).Configured) {i : Source} (h3 : args.input = some i) :
    ∃ c, ∀ n, runFile recip env penv n log args = solveFile (env c) penv n log args i (logLine log.banner1 ++ logLine log.banner2 ++ logLine log.reading) ∧
      ∀ fault, run recip env n log (args.plain fault) =
        solveInput (env c) n log (args.plain fault) i (logLine log.banner1 ++ logLine log.banner2 ++ logLine log.reading) := by
  obtain ⟨vs, q1, q2⟩ := h2
  have q1 : args.configs = vs.map some := q1
  have hm : mergeConfigs {} args.configs = some (vs.foldl Config.Update.merge {}) := mergeConfigs_iff.2 ⟨vs, q1, rfl⟩
  rcases Config.C43.solver (recip := recip) .new (vs.foldl Config.Update.merge {}) with ⟨hr, f, k⟩ | ⟨hr, c, k, _⟩
  · exact absurd q2 hr
  refine ⟨c.config, fun n => ⟨?_, fun fault => ?_⟩⟩
  · unfold runFile
    simp only [h1, Bool.false_eq_true, if_false, hm, k, h3]
  · unfold run
    simp only [FileArgs.plain, h1, Bool.false_eq_true, if_false, hm, k, h3]

end Varisat.Cli
