import Verif.Model.CliDisk
import Verif.Proof.ProofBuffer
import Verif.Proof.CliFault
/-!
# Proofs about the command line tool with the `BufWriter` of its proof file

Every run is a run of `CliFile` with an environment that has the results of the `BufWriter`.
-/
namespace Varisat.Cli
open Out (Env)
open Out.Buf (B Dev Runs Inv Agrees)
open Solver (St Stop)

variable {α : Type} [LinearOrder α] {d : Dev} {e : Solver.Env α}

theorem toOption_bind {ε β γ : Type} (x : Except ε β) (f : β → Except ε γ) :
    (match x with | .error y => .error y | .ok b => f b : Except ε γ).toOption = x.toOption.bind fun b => (f b).toOption := by
  cases x <;> rfl

/-- The end of `solve`. -/
def closing (d : Dev) (s' : St α) (r : List Nat) (b : B) : Option (St α × B × List Nat × Option Out.SErr) :=
  match Out.Buf.solveFinished d b with
  | none => none
  | some b => some (s', (Out.Buf.takeError b).1, r, (Out.Buf.takeError b).2)

/-- A call, with the state of `ProofOut`. -/
def outJ (c : St α × B × List Nat × Option Out.SErr) : St α × Out.Sess × List Nat × Option Out.SErr := (c.1, c.2.1.s, c.2.2)

abbrev RunsJ (d : Dev) (b : B) (r : Option (St α × B × List Nat × Option Out.SErr)) (a : Env → Option (St α × Out.Sess × List Nat × Option Out.SErr)) : Prop :=
  Runs d b (fun c => c.2.1) (fun c => Inv c.2.1) outJ r a

theorem jointB_runs (hd : d.Ok) {b : B} (h : Inv b) (op : Solver.Op) (s : St α) :
    RunsJ d b (jointB e d op s b) (fun env => (s.joint e env op b.s).toOption) := by
  unfold jointB St.joint
  cases hs : s.step e op with
  | error x => exact ⟨b.log, List.prefix_refl _, fun _ _ => rfl⟩
  | ok c =>
    obtain ⟨s', r⟩ := c
    have plain : RunsJ d b (match Out.Buf.runEvs d ((s'.log.drop s.log.length).map Solver.toEv) b with
        | none => none
        | some b => some (s', b, r, none))
        (fun env => (match Solver.feed env (s'.log.drop s.log.length) b.s with
          | none => .error .panic
          | some o => .ok (s', o, r, none) : Except Stop _).toOption) := by
      refine Runs.of_eq (Runs.bind (k := fun b => some (s', b, r, none)) (k' := fun _ o => some (s', o, r, none))
        (Out.Buf.runEvs_runs hd ((s'.log.drop s.log.length).map Solver.toEv) h) fun b' _ hg => ⟨hg, List.prefix_refl _, fun _ _ => rfl⟩) ?_ ?_
      · cases Out.Buf.runEvs d ((s'.log.drop s.log.length).map Solver.toEv) b <;> rfl
      · intro env _ _
        unfold Solver.feed
        cases Out.runEvs env ((s'.log.drop s.log.length).map Solver.toEv) b.s <;> rfl
    cases op with
    | solve n =>
      simp only
      by_cases hi : b.s.invalid = true
      · simp only [if_pos hi]
        exact ⟨b.log, List.prefix_refl _, fun _ _ => rfl⟩
      · simp only [if_neg hi]
        have h0 : Inv { b with s := { b.s with invoked := true } } := h.congr rfl rfl rfl rfl rfl rfl rfl
        refine Runs.of_eq (Runs.bind (k := closing d s' r) (k' := fun env o => (Out.solveFinished env o).bind fun o => some (s', (Out.takeError o).1, r, (Out.takeError o).2))
          ((Out.Buf.runEvs_runs hd ((s'.log.drop s.log.length).map Solver.toEv) h0).from rfl) fun b' _ hg => ?_) ?_ ?_
        · refine Runs.of_eq (Runs.bind (k := fun b => some (s', (Out.Buf.takeError b).1, r, (Out.Buf.takeError b).2))
            (k' := fun _ o => some (s', (Out.takeError o).1, r, (Out.takeError o).2)) (Out.Buf.solveFinished_runs hg) fun b2 _ hg2 => ?_) ?_ (fun _ _ _ => rfl)
          · exact ⟨Out.Buf.takeError_inv hg2, List.prefix_refl _, fun _ _ => rfl⟩
          · unfold closing
            simp only [id]
            cases Out.Buf.solveFinished d b' <;> rfl
        · cases Out.Buf.runEvs d ((s'.log.drop s.log.length).map Solver.toEv) { b with s := { b.s with invoked := true } } <;> rfl
        · intro env _ _
          unfold Solver.feed
          cases h1 : Out.runEvs env ((s'.log.drop s.log.length).map Solver.toEv) { b.s with invoked := true } with
          | none => rfl
          | some o =>
            simp only [Option.bind_some]
            cases Out.solveFinished env o <;> rfl
    | _ => exact plain

/-- A `solve` without an error leaves nothing in the buffer. -/
theorem jointB_flushed (hd : d.Ok) {b b' : B} {s s' : St α} {n : Nat} {r : List Nat} (h : Inv b)
    (hj : jointB e d (.solve n) s b = some (s', b', r, none)) : b'.s.error = none ∧ (b'.s.proof.format.isSome → b'.w.buf = []) := by
  unfold jointB at hj
  split at hj
  · cases hj
  · rename_i s1 r1 _
    simp only at hj
    split at hj
    · cases hj
    · have h0 : Inv { b with s := { b.s with invoked := true } } := h.congr rfl rfl rfl rfl rfl rfl rfl
      have hr := Out.Buf.runEvs_runs hd ((s1.log.drop s.log.length).map Solver.toEv) h0
      split at hj
      · cases hj
      · rename_i b1 h1
        rw [h1] at hr
        have hi : Inv b1 := hr.1
        split at hj
        · cases hj
        · rename_i b2 h2
          simp only [Option.some.injEq, Prod.mk.injEq] at hj
          obtain ⟨-, rfl, -, her⟩ := hj
          have he : b2.s.error = none := by
            unfold Out.Buf.takeError Out.takeError at her
            cases hb : b2.s.error with
            | none => rfl
            | some x => rw [hb] at her; cases her
          have ht : Out.Buf.takeError b2 = (b2, none) := by unfold Out.Buf.takeError Out.takeError; rw [he]
          rw [ht]
          refine ⟨he, fun hf => ?_⟩
          unfold Out.Buf.solveFinished at h2
          obtain ⟨k1, k2⟩ := Out.Buf.tell_format h2 hf
          rw [k1]
          exact (Out.Buf.flush_runs hi).2 k2

abbrev RunsL (d : Dev) (b : B) (r : Option (St α × B)) (a : Env → Option (St α × Out.Sess)) : Prop :=
  Runs d b (fun c => c.2) (fun c => Inv c.2) (fun c => (c.1, c.2.s)) r a

theorem loadJoint_cons (env : Env) (c : List Lit) (cs : List (List Lit)) (q : St α × Out.Sess) :
    (loadJoint e env (c :: cs) q).toOption = ((q.1.joint e env (.addClause c) q.2).toOption).bind fun x => (loadJoint e env cs (x.1, x.2.1)).toOption := by
  unfold loadJoint
  rw [List.foldlM_cons]
  cases q.1.joint e env (.addClause c) q.2 <;> rfl

theorem loadB_runs (hd : d.Ok) (cs : List (List Lit)) {s : St α} {b : B} (h : Inv b) :
    RunsL d b (loadB e d cs (s, b)) (fun env => (loadJoint e env cs (s, b.s)).toOption) := by
  induction cs generalizing s b with
  | nil => exact ⟨h, List.prefix_refl _, fun _ _ => rfl⟩
  | cons c cs ih =>
    refine Runs.of_eq (Runs.bind (k := fun x => loadB e d cs (x.1, x.2.1)) (k' := fun env x => (loadJoint e env cs (x.1, x.2.1)).toOption)
      (jointB_runs (e := e) hd h (.addClause c) s) fun x _ hg => ih hg) ?_ ?_
    · rw [loadB]
      cases jointB e d (.addClause c) s b <;> rfl
    · intro env _ _
      exact loadJoint_cons env c cs (s, b.s)

theorem addFormulasB_runs (hd : d.Ok) (fs : List CnfFormula) {s : St α} {b : B} (h : Inv b) :
    RunsL d b (addFormulasB e d fs (s, b)) (fun env => (addFormulasJoint e env fs (s, b.s)).toOption) := by
  induction fs generalizing s b with
  | nil => exact ⟨h, List.prefix_refl _, fun _ _ => rfl⟩
  | cons f fs ih =>
    unfold addFormulasB addFormulasJoint
    cases hf : f.iter with
    | none => exact ⟨b.log, List.prefix_refl _, fun _ _ => rfl⟩
    | some cs =>
      simp only
      refine Runs.of_eq (Runs.bind (k := fun x => addFormulasB e d fs x) (k' := fun env x => (addFormulasJoint e env fs x).toOption)
        (loadB_runs (e := e) hd cs (s := s) h) fun x _ hg => ih hg) ?_ ?_
      · cases loadB e d cs (s, b) <;> rfl
      · intro env _ _
        cases loadJoint e env cs (s, b.s) <;> rfl

abbrev RunsA (d : Dev) (b : B) (r : Option (Bytes × Nat × B)) (a : Env → Option (Bytes × Nat × Out.Sess)) : Prop :=
  Runs d b (fun c => c.2.2) (fun c => Inv c.2.2 ∧ (c.2.1 = 10 ∨ c.2.1 = 20 → c.2.2.s.error = none ∧ (c.2.2.s.proof.format.isSome → c.2.2.w.buf = [])))
    (fun c => (c.1, c.2.1, c.2.2.s)) r a

theorem answerB_runs (hd : d.Ok) (n : Nat) (log : Log) {s : St α} {b : B} (h : Inv b) :
    RunsA d b (answerB e d n log s b) (fun env => answerJoint e env n log s b.s) := by
  refine Runs.of_eq (Runs.bind (k := fun x => match x with
      | (_, b, _, some _) => some (logLine log.error ++ ascii "s UNKNOWN" ++ [10], 0, b)
      | (s, b, r, none) =>
        if r = [0] then some (ascii "s UNSATISFIABLE" ++ [10], 20, b)
        else
          match s.modelLits with
          | some (some m) =>
            some (ascii "s SATISFIABLE" ++ [10] ++ ascii "v" ++ m.flatMap (fun l => ascii " " ++ decInt l.toDimacs) ++
              ascii " 0" ++ [10], 10, b)
          | _ => none) (k' := fun _ x => match x with
      | (_, b, _, some _) => some (logLine log.error ++ ascii "s UNKNOWN" ++ [10], 0, b)
      | (s, b, r, none) =>
        if r = [0] then some (ascii "s UNSATISFIABLE" ++ [10], 20, b)
        else
          match s.modelLits with
          | some (some m) =>
            some (ascii "s SATISFIABLE" ++ [10] ++ ascii "v" ++ m.flatMap (fun l => ascii " " ++ decInt l.toDimacs) ++
              ascii " 0" ++ [10], 10, b)
          | _ => none) (jointB_runs (e := e) hd h (.solve n) s) fun x hx hg => ?_) ?_ ?_
  · obtain ⟨s', b', r, er⟩ := x
    cases er with
    | some y => exact ⟨⟨hg, by simp⟩, List.prefix_refl _, fun _ _ => rfl⟩
    | none =>
      have hfl := jointB_flushed hd h hx
      simp only [outJ]
      split
      · exact ⟨⟨hg, fun _ => hfl⟩, List.prefix_refl _, fun _ _ => rfl⟩
      · split
        · exact ⟨⟨hg, fun _ => hfl⟩, List.prefix_refl _, fun _ _ => rfl⟩
        · exact ⟨b'.log, List.prefix_refl _, fun _ _ => rfl⟩
  · unfold answerB
    rcases jointB e d (.solve n) s b with _ | ⟨s', b', r, _ | er⟩ <;> rfl
  · intro env _ _
    unfold answerJoint
    rcases s.joint e env (.solve n) b.s with _ | ⟨s', b', r, _ | er⟩ <;> rfl

/-- `solveFile` before the solver is dropped. -/
def ended (e : Solver.Env α) (env : Env) (fuel : Nat) (log : Log) (args : FileArgs) (input : Source) (out : Bytes) : Option (Bytes × Nat × Out.Sess) :=
  if input.fails then some (out ++ logLine log.error, 1, args.sess)
  else
    match DimacsParser.parseIncremental .new (input.chunks.map (·, true)) true with
    | (_, fs, err) =>
      match addFormulasJoint e env fs (Solver.St.new e, args.sess) with
      | .error _ => none
      | .ok (s, o) =>
        match err with
        | some _ => some (out ++ logLine log.error, 1, o)
        | none =>
          match answerJoint e env fuel log s o with
          | none => none
          | some (a, code, o) => some (out ++ log.solving.flatMap logLine ++ a, code, o)

theorem inv_sess (args : FileArgs) : Inv { s := args.sess } := by
  rw [args.sess_eq]
  exact ⟨rfl, .nil, fun f _ => Out.Buf.rel_new f, (fun f _ _ x hx => nomatch hx), fun _ => ⟨rfl, rfl⟩⟩

theorem endedB_runs (hd : d.Ok) (n : Nat) (log : Log) (args : FileArgs) (input : Source) (out : Bytes) :
    RunsA d {} (endedB e d n log args input out) (fun env => ended e env n log args input out) := by
  unfold endedB ended
  by_cases hi : input.fails = true
  · simp only [if_pos hi]
    exact ⟨⟨inv_sess args, by simp⟩, List.prefix_refl _, fun _ _ => rfl⟩
  · simp only [if_neg hi]
    rcases DimacsParser.parseIncremental .new (input.chunks.map (·, true)) true with ⟨p, fs, err⟩
    simp only
    refine Runs.of_eq (Runs.bind (k := fun x => match err with
        | some _ => some (out ++ logLine log.error, 1, x.2)
        | none => (answerB e d n log x.1 x.2).bind fun y => some (out ++ log.solving.flatMap logLine ++ y.1, y.2.1, y.2.2))
      (k' := fun env x => match err with
        | some _ => some (out ++ logLine log.error, 1, x.2)
        | none => (answerJoint e env n log x.1 x.2).bind fun y => some (out ++ log.solving.flatMap logLine ++ y.1, y.2.1, y.2.2))
      ((addFormulasB_runs (e := e) hd fs (s := St.new e) (inv_sess args)).from rfl) fun x _ hg => ?_) ?_ ?_
    · cases err with
      | some _ => exact ⟨⟨hg, by simp⟩, List.prefix_refl _, fun _ _ => rfl⟩
      | none =>
        refine Runs.bind (answerB_runs hd n log hg) fun y _ hy => ⟨hy, List.prefix_refl _, fun _ _ => rfl⟩
    · rcases addFormulasB e d fs (St.new e, { s := args.sess }) with _ | ⟨s, b⟩
      · rfl
      · cases err with
        | some _ => rfl
        | none =>
          simp only [Option.bind_some]
          rcases answerB e d n log s b with _ | ⟨a, code, b'⟩ <;> rfl
    · intro env _ _
      rcases addFormulasJoint e env fs (St.new e, args.sess) with _ | ⟨s, b⟩
      · rfl
      · cases err with
        | some _ => rfl
        | none =>
          simp only [Except.toOption, Option.bind_some]
          rcases answerJoint e env n log s b with _ | ⟨a, code, b'⟩ <;> rfl

/-! ### Nothing is lost of a flushed file -/

theorem loadB_same {cs : List (List Lit)} {s s' : St α} {b b' : B} (h : loadB e d cs (s, b) = some (s', b')) : Out.Buf.Same b b' := by
  induction cs generalizing s b with
  | nil => cases h; exact .refl _
  | cons c cs ih =>
    unfold loadB at h
    cases hj : jointB e d (.addClause c) s b with
    | none => simp only [hj] at h; cases h
    | some x =>
      simp only [hj] at h
      refine Out.Buf.Same.trans ?_ (ih h)
      unfold jointB at hj
      split at hj
      · cases hj
      · simp only at hj
        split at hj
        · cases hj
        · rename_i h1
          cases hj
          exact Out.Buf.runEvs_same h1

theorem addFormulasB_same {fs : List CnfFormula} {s s' : St α} {b b' : B} (h : addFormulasB e d fs (s, b) = some (s', b')) : Out.Buf.Same b b' := by
  induction fs generalizing s b with
  | nil => cases h; exact .refl _
  | cons f fs ih =>
    unfold addFormulasB at h
    split at h
    · cases h
    · split at h
      · cases h
      · rename_i q hq
        obtain ⟨s1, b1⟩ := q
        exact (loadB_same hq).trans (ih h)

theorem jointB_same {b b' : B} {s s' : St α} {n : Nat} {r : List Nat} (hj : jointB e d (.solve n) s b = some (s', b', r, none)) : Out.Buf.Same b b' := by
  unfold jointB at hj
  split at hj
  · cases hj
  · simp only at hj
    split at hj
    · cases hj
    · split at hj
      · cases hj
      · rename_i b1 h1
        split at hj
        · cases hj
        · rename_i b2 h2
          simp only [Option.some.injEq, Prod.mk.injEq] at hj
          obtain ⟨-, rfl, -, her⟩ := hj
          have he : b2.s.error = none := by
            unfold Out.Buf.takeError Out.takeError at her
            cases hb : b2.s.error with
            | none => rfl
            | some x => rw [hb] at her; cases her
          have ht : Out.Buf.takeError b2 = (b2, none) := by unfold Out.Buf.takeError Out.takeError; rw [he]
          rw [ht]
          have h0 : Out.Buf.Same b { b with s := { b.s with invoked := true } } := fun h => ⟨h, rfl, rfl, rfl, List.prefix_refl _⟩
          exact h0.trans ((Out.Buf.runEvs_same h1).trans ((Out.Buf.flush_same d b1).trans (Out.Buf.tell_same h2)))

/-- When there is a verdict, the proof file is still the one given, and nothing is left in the buffer. -/
theorem endedB_verdict (hd : d.Ok) {n : Nat} {log : Log} {args : FileArgs} {input : Source} {out out' : Bytes} {code : Nat} {b : B}
    (h : endedB e d n log args input out = some (out', code, b)) (hc : code = 10 ∨ code = 20) :
    Inv b ∧ b.s.error = none ∧ b.s.proof.format = args.format ∧ b.files = [] ∧ b.s.files = [] ∧ (args.format.isSome → b.w.buf = []) := by
  have hr := endedB_runs (e := e) hd n log args input out
  rw [h] at hr
  obtain ⟨⟨hi, hv⟩, -, -⟩ := hr
  obtain ⟨hv1, hv2⟩ := hv hc
  have hs : Out.Buf.Same { s := args.sess } b := by
    unfold endedB at h
    split at h
    · cases h; rcases hc with hc | hc <;> cases hc
    · simp only at h
      split at h
      · cases h
      · rename_i s1 b1 h1
        split at h
        · cases h; rcases hc with hc | hc <;> cases hc
        · split at h
          · cases h
          · rename_i a code' b2 h2
            cases h
            refine (addFormulasB_same h1).trans ?_
            unfold answerB at h2
            split at h2
            · cases h2
            · cases h2; rcases hc with hc | hc <;> cases hc
            · rename_i hj
              split at h2
              · cases h2; exact jointB_same hj
              · split at h2
                · cases h2; exact jointB_same hj
                · cases h2
  obtain ⟨-, h2, h3, h4, -⟩ := hs hv1
  have hf : b.s.proof.format = args.format := by rw [h2, args.sess_eq]; rfl
  refine ⟨hi, hv1, hf, h3, ?_, fun h => hv2 (by rw [hf]; exact h)⟩
  rw [h4, args.sess_eq]; rfl

end Varisat.Cli

namespace Varisat.Out.Buf
open Lrat (Target)
open Lrat.Io (F)

variable {d : Dev}

theorem put_nil {t : Target} {w : F} (h : w.buf = []) : Lrat.Io.put t [] w = .ok () w := by
  unfold Lrat.Io.put
  simp only [bind, EStateM.bind, get, getThe, MonadStateOf.get, EStateM.get]
  rw [if_pos (by rw [h]; decide), h, List.append_nil, ← h]
  rfl

theorem putAll_nil {t : Target} {w : F} (h : w.buf = []) : ∀ {cs : List Bytes}, cs.flatten = [] → putAll t cs w = .ok () w
  | [], _ => rfl
  | c :: cs, hc => by
    rw [List.flatten_cons, List.append_eq_nil_iff] at hc
    unfold putAll
    show EStateM.bind _ _ _ = _
    unfold EStateM.bind
    rw [hc.1, put_nil h]
    exact putAll_nil h hc.2

/-- The target has the bytes `D`, now or after it was dropped. -/
def Has (f : Format) (D : Bytes) (b : B) : Prop :=
  b.s.proof.format = some f ∧ b.w.buf = [] ∧ b.w.data = D ∧ b.files = [] ∨ b.s.proof.format = none ∧ b.files = [D]

variable {f : Format} {D : Bytes}

theorem Has.drop {b : B} (h : Has f D b) : Has f D (b.drop d) := by
  refine .inr ⟨rfl, ?_⟩
  show b.files ++ b.left d = [D]
  unfold B.left
  rcases h with ⟨h1, h2, h3, h4⟩ | ⟨h1, h2⟩
  · rw [h1, discard_empty h2, h3, h4]; rfl
  · rw [h1, h2]; rfl

theorem Has.tell {b b' : B} {m : Checker.CM Unit} (h : Has f D b) (ht : tell d b m = some b') : Has f D b' := by
  unfold Out.Buf.tell at ht
  split at ht
  · unfold handleCheck at ht
    split at ht
    · cases ht; exact h
    · cases ht; exact h.drop (d := d)
    · cases ht
  · cases ht; exact h

theorem Has.flush {b : B} (h : Has f D b) : Has f D (flush d b) := by
  unfold Out.Buf.flush
  split
  · rename_i hs
    rcases h with ⟨h1, h2, h3, h4⟩ | ⟨h1, h2⟩
    swap
    · rw [h1] at hs; cases hs
    have hw : ∀ w, (Lrat.Io.flushTarget (b.target d) b.w = .ok () w ∨ Lrat.Io.flushTarget (b.target d) b.w = .error () w) → w.buf = [] ∧ w.data = D := by
      intro w hw
      have hfb : Lrat.Io.flushBuf (b.target d) b.w = .ok () b.w := by
        unfold Lrat.Io.flushBuf
        rw [h2, Lrat.Io.drain, ← h2]
        rfl
      unfold Lrat.Io.flushTarget at hw
      simp only [bind, EStateM.bind, hfb] at hw
      rcases hw with hw | hw
      all_goals
        simp only [get, getThe, MonadStateOf.get, EStateM.get] at hw
        split at hw
        all_goals first | cases hw; exact ⟨h2, h3⟩ | (cases hw)
    split
    · rename_i w hw'
      obtain ⟨k1, k2⟩ := hw w (.inl hw')
      exact .inl ⟨h1, k1, k2, h4⟩
    · rename_i w hw'
      obtain ⟨k1, k2⟩ := hw w (.inr hw')
      have : Has f D { b with s := { b.s with ios := b.s.ios + 1 }, w := w, log := b.log ++ [false] } := .inl ⟨h1, k1, k2, h4⟩
      exact this.drop (d := d)
  · exact h

/-- Dropping the solver does not change a flushed file in a DRAT format, whatever fails. -/
theorem close_flushed (hd : d.Ok) {b b' : B} {r : Option Ret} (hf : b.s.proof.format = some f) (hg : f ≠ .varisat)
    (hb : b.w.buf = []) (h0 : b.files = []) (hc : close d b = some (b', r)) : b'.files = [b.w.data] := by
  have h : Has f b.w.data b := .inl ⟨hf, hb, rfl, h0⟩
  unfold close closeOutput at hc
  cases h1 : addStep d b .end_ with
  | none => rw [h1] at hc; cases hc
  | some b1 =>
    rw [h1] at hc
    have k1 : Has f b.w.data b1 := by
      unfold addStep at h1
      split at h1
      · cases h1; exact h
      · have hw : writeOut d b .end_ = some (putStep d b .end_ .end_) := by
          unfold writeOut
          rw [hf]
          cases f with
          | varisat => exact absurd rfl hg
          | _ => rfl
        rw [hw] at h1
        have hbytes : encode f .end_ = [] := by
          cases f with
          | varisat => exact absurd rfl hg
          | _ => rfl
        have hp : putStep d b .end_ .end_ = ({ { b with s := (Out.put (d.env true) b.s .end_).1, log := b.log ++ [true] } with
            s := { (Out.put (d.env true) b.s .end_).1 with proof := { (Out.put (d.env true) b.s .end_).1.proof with given := (Out.put (d.env true) b.s .end_).1.proof.given ++ [.end_] } } }, true) := by
          unfold putStep put
          simp only [hf, hbytes]
          rw [putAll_nil hb (by rw [hd])]
        rw [hp] at h1
        refine Has.tell ?_ h1
        refine .inl ⟨?_, hb, rfl, h0⟩
        show (Out.put (d.env true) b.s .end_).1.proof.format = some f
        rw [← hf]
        unfold Out.put Dev.env
        rfl
    have k2 := (k1.flush (d := d)).drop (d := d)
    have k3 : (retarget d none (flush d b1)).files = [b.w.data] := by
      rcases k2 with ⟨k2, -⟩ | ⟨-, k2⟩
      · cases k2
      · exact k2
    simp only at hc
    have k4 : (takeError (retarget d none (flush d b1))).1.files = [b.w.data] := k3
    rcases ht : takeError (retarget d none (flush d b1)) with ⟨c, _ | _⟩
    all_goals
      rw [ht] at hc k4
      cases hc
      exact k4

end Varisat.Out.Buf

namespace Varisat.Cli
open Out (Env)
open Out.Buf (B Dev Runs Inv Agrees)
open Solver (St Stop)

variable {α : Type} [LinearOrder α] {d : Dev} {e : Solver.Env α}

/-! ### Runs -/

/-- Two files, one of which may be cut off. -/
def Near : Option Bytes → Option Bytes → Prop
  | none, none => True
  | some x, some y => x <+: y ∨ y <+: x
  | _, _ => False

theorem Near.refl : ∀ x, Near x x
  | none => trivial
  | some x => .inl (List.prefix_refl x)

theorem solveFile_ended (env : Env) (n : Nat) (log : Log) (args : FileArgs) (input : Source) (out : Bytes) :
    solveFile e env n log args input out =
      let go (out : Bytes) := (ended e env n log args input out).bind fun x => finish env (args.proof.map (·.1)) x.1 x.2.1 x.2.2
      match args.proof with
      | none => go out
      | some (.lrat _, creates) =>
        if creates then go (out ++ logLine log.proof) else some (out ++ logLine log.error, 1, none)
      | some (.steps _, creates) =>
        if creates then go (out ++ logLine log.proof) else some (out ++ logLine log.proof ++ logLine log.error, 1, none) := by
  have hg : ∀ out, (ended e env n log args input out).bind (fun x => finish env (args.proof.map (·.1)) x.1 x.2.1 x.2.2) =
      if input.fails then finish env (args.proof.map (·.1)) (out ++ logLine log.error) 1 args.sess
      else
        match DimacsParser.parseIncremental .new (input.chunks.map (·, true)) true with
        | (_, fs, err) =>
          match addFormulasJoint e env fs (Solver.St.new e, args.sess) with
          | .error _ => none
          | .ok (s, o) =>
            match err with
            | some _ => finish env (args.proof.map (·.1)) (out ++ logLine log.error) 1 o
            | none =>
              match answerJoint e env n log s o with
              | none => none
              | some (a, code, o) => finish env (args.proof.map (·.1)) (out ++ log.solving.flatMap logLine ++ a) code o := by
    intro out
    unfold ended
    split
    · rfl
    · rcases DimacsParser.parseIncremental .new (input.chunks.map (·, true)) true with ⟨p, fs, err⟩
      simp only
      rcases addFormulasJoint e env fs (St.new e, args.sess) with _ | ⟨s, o⟩
      · rfl
      · cases err with
        | some _ => rfl
        | none =>
          simp only
          rcases answerJoint e env n log s o with _ | ⟨a, code, o'⟩ <;> rfl
  simp only [hg]
  rfl

theorem addFormulas_oneFile {env : Env} {f : Option Out.Format} : ∀ (fs : List CnfFormula) {q q' : St α × Out.Sess}, Out.OneFile f q.2 →
    addFormulasJoint e env fs q = .ok q' → Out.OneFile f q'.2
  | [], q, q', h, hk => by cases hk; exact h
  | g :: fs, q, q', h, hk => by
    unfold addFormulasJoint at hk
    split at hk
    · cases hk
    · split at hk
      · cases hk
      · rename_i h1
        exact addFormulas_oneFile fs (load_oneFile _ h h1) hk

theorem ended_oneFile {env : Env} {n : Nat} {log : Log} {args : FileArgs} {input : Source} {out : Bytes} {x : Bytes × Nat × Out.Sess}
    (h : ended e env n log args input out = some x) : Out.OneFile args.format x.2.2 := by
  have h0 : Out.OneFile args.format args.sess := by rw [args.sess_eq]; exact Solver.setup_oneFile
  unfold ended at h
  split at h
  · cases h; exact h0
  · simp only at h
    split at h
    · cases h
    · rename_i s o ha
      have h1 : Out.OneFile args.format o := addFormulas_oneFile _ h0 ha
      split at h
      · cases h; exact h1
      · split at h
        · cases h
        · rename_i hj
          cases h
          unfold answerJoint at hj
          split at hj
          · cases hj
          · rename_i hk
            cases hj
            exact Solver.joint_oneFile h1 hk
          · rename_i hk
            have h2 := Solver.joint_oneFile h1 hk
            split at hj
            · cases hj; exact h2
            · split at hj
              · cases hj; exact h2
              · cases hj

/-- The file of a run, and of the run of `CliFile`. -/
theorem droppedB_near (hd : d.Ok) {args : FileArgs} {b : B} (h : Inv b) (h1 : Out.OneFile args.format b.s) :
    match droppedB d (args.proof.map (·.1)) b with
    | none => ∃ L, b.log <+: L ∧ ∀ env, Agrees d env L → dropped env (args.proof.map (·.1)) b.s = none
    | some file => ∃ L, b.log <+: L ∧ ∀ env, Agrees d env L → ∃ file', dropped env (args.proof.map (·.1)) b.s = some file' ∧ Near file file' ∧
        ((∀ f, args.format = some f → f ≠ .varisat ∧ b.s.error = none ∧ b.s.proof.format = some f ∧ b.w.buf = [] ∧ b.files = [] ∧ b.s.files = []) → file = file') := by
  have hr := Out.Buf.close_runs hd h
  cases hc : Out.Buf.close d b with
  | none =>
    rw [hc] at hr
    obtain ⟨L, hL, hk⟩ := hr
    have : droppedB d (args.proof.map (·.1)) b = none := by unfold droppedB; rw [hc]
    rw [this]
    refine ⟨L, hL, fun env ha => ?_⟩
    have hn := hk env ha
    unfold dropped
    cases hx : Out.close env b.s with
    | none => rfl
    | some x => simp only [hx] at hn; cases hn
  | some c =>
    obtain ⟨b', r⟩ := c
    rw [hc] at hr
    obtain ⟨hi, hL, hk⟩ := hr
    have hcl : ∀ env, Agrees d env b'.log → ∃ r', Out.close env b.s = some (b'.s, r') := fun env ha => by
      have hn := hk env ha
      cases hx : Out.close env b.s with
      | none => simp only [hx] at hn; cases hn
      | some x =>
        simp only [hx, Option.map_some, Option.some.injEq] at hn
        obtain ⟨s, r'⟩ := x
        refine ⟨r', ?_⟩
        cases r with
        | none => cases hn
        | some r0 => cases hn; rfl
    have hb : droppedB d (args.proof.map (·.1)) b = match args.proof.map (·.1) with
        | none => some none
        | some (.lrat binary) => some (b'.s.proof.checker.map fun c => Lrat.Io.file d.lrat binary c.out)
        | some (.steps _) => some b'.files.getLast? := by unfold droppedB; rw [hc]; rcases args.proof with _ | ⟨_ | _, _⟩ <;> rfl
    rw [hb]
    cases hp : args.proof with
    | none =>
      refine ⟨b'.log, hL, fun env ha => ⟨none, ?_, trivial, fun _ => rfl⟩⟩
      obtain ⟨r', hx⟩ := hcl env ha
      unfold dropped
      rw [hx]
      rfl
    | some pc =>
      obtain ⟨kind, creates⟩ := pc
      cases kind with
      | lrat binary =>
        refine ⟨b'.log, hL, fun env ha => ⟨_, ?_, Near.refl _, fun _ => rfl⟩⟩
        obtain ⟨r', hx⟩ := hcl env ha
        unfold dropped
        rw [hx]
        show some _ = some _
        rw [ha.2.1]
      | steps f =>
        have hf : args.format = some f := by unfold FileArgs.format; rw [hp]
        refine ⟨b'.log, hL, fun env ha => ?_⟩
        obtain ⟨r', hx⟩ := hcl env ha
        rw [hf] at h1
        obtain ⟨q1, q2⟩ := h1.close hx
        obtain ⟨x, hxs, hxf⟩ : ∃ x, b'.s.files = [x] ∧ x.format = f := by
          have q := q1.1
          unfold Out.Proof.file at q
          rw [q2] at q
          simp only [List.append_nil, Option.toList] at q
          cases hl : b'.s.files with
          | nil => rw [hl] at q; cases q
          | cons x l =>
            rw [hl] at q
            cases l with
            | nil => simp only [List.map_cons, List.map_nil, List.cons.injEq, and_true] at q; exact ⟨x, rfl, q⟩
            | cons y l => simp at q
        have hfl := hi.files
        simp only at hfl
        rw [hxs] at hfl
        obtain ⟨data, hdata, hleft⟩ : ∃ data, b'.files = [data] ∧ Out.Buf.Left data x := by
          cases hl : b'.files with
          | nil => rw [hl] at hfl; cases hfl
          | cons y l =>
            rw [hl] at hfl
            cases hfl with
            | cons k1 k2 => cases k2; exact ⟨y, rfl, k1⟩
        obtain ⟨tail, ht, hsup, hpre⟩ := hleft
        rw [hxf] at hsup hpre
        have hsup' : Out.Buf.Sup f x.written := fun hv st hst => hsup hv st (List.mem_append_left _ hst)
        have hw := hsup'.whole
        have hdr : dropped env (some (.steps f)) b.s = some (some (Out.Buf.enc f x.written)) := by
          unfold dropped
          rw [hx]
          simp only [hxs, List.getLast?_singleton]
          cases f with
          | varisat => rfl
          | drat => show (Drat.output false x.written).map some = _; rw [hw]; rfl
          | binaryDrat => show (Drat.output true x.written).map some = _; rw [hw]; rfl
        refine ⟨some (Out.Buf.enc f x.written), hdr, ?_, fun hv => ?_⟩
        · show Near b'.files.getLast? _
          rw [hdata, List.getLast?_singleton]
          rw [Out.Buf.enc_append] at hpre
          exact List.prefix_or_prefix_of_prefix hpre (List.prefix_append _ _)
        · obtain ⟨v1, v2, v3, v4, v5, v6⟩ := hv f hf
          have k1 := Out.Buf.close_flushed hd v3 v1 v4 v5 hc
          obtain ⟨y, w1, w2, w3⟩ := Out.close_written v1 v3 v2 hx
          rw [hxs, v6] at w1
          obtain rfl : x = y := by simpa using w1
          show b'.files.getLast? = _
          rw [k1, List.getLast?_singleton]
          have htg := (h.cur f v3).target
          rw [v4, List.append_nil] at htg
          have htg : Out.Buf.enc f b.s.proof.written = b.w.data := htg
          rw [← htg]
          rcases w3 with w3 | w3
          · rw [w3]
          · rw [w3, Out.Buf.enc_append]
            have : Out.Buf.enc f [.end_] = [] := by
              cases f with
              | varisat => exact absurd rfl v1
              | _ => rfl
            rw [this, List.append_nil]

/-- What a run and a run of `CliFile` have in common. -/
def Alike (args : FileArgs) (x y : Option (Bytes × Nat × Option Bytes)) : Prop :=
  match x with
  | none => y = none
  | some (out, code, file) => ∃ file', y = some (out, code, file') ∧ Near file file' ∧ (code = 10 ∨ code = 20 → args.format ≠ some .varisat → file = file')

theorem solveDisk_alike (hd : d.Ok) (n : Nat) (log : Log) (args : FileArgs) (input : Source) (out : Bytes) :
    ∃ env : Env, env.chk = d.chk ∧ env.lrat = d.lrat ∧ Alike args (solveDisk e d n log args input out) (solveFile e env n log args input out) := by
  have hgo : ∀ out, ∃ env : Env, env.chk = d.chk ∧ env.lrat = d.lrat ∧
      Alike args ((endedB e d n log args input out).bind (finishB d (args.proof.map (·.1))))
        ((ended e env n log args input out).bind fun x => finish env (args.proof.map (·.1)) x.1 x.2.1 x.2.2) := by
    intro out
    have hr := endedB_runs (e := e) hd n log args input out
    cases hb : endedB e d n log args input out with
    | none =>
      rw [hb] at hr
      obtain ⟨L, -, hk⟩ := hr
      refine ⟨⟨fun n => L.getD n true, d.chk, d.lrat⟩, rfl, rfl, ?_⟩
      · rw [show ended e _ n log args input out = none from hk _ (Out.Buf.agrees_exists d L)]; rfl
    | some x =>
      obtain ⟨out', code, b⟩ := x
      rw [hb] at hr
      obtain ⟨⟨hi, -⟩, -, hk⟩ := hr
      have hone : Out.OneFile args.format b.s := ended_oneFile (hk _ (Out.Buf.agrees_exists d b.log))
      have hn := droppedB_near hd hi hone
      have hag : ∀ L, b.log <+: L → ∀ env, Agrees d env L → Agrees d env b.log := by
        rintro L ⟨M, rfl⟩ env ⟨a1, a2, a3⟩
        refine ⟨a1, a2, fun k x hx => a3 k x ?_⟩
        rw [List.getElem?_append_left (List.getElem?_eq_some_iff.1 hx).1]
        exact hx
      cases hdr : droppedB d (args.proof.map (·.1)) b with
      | none =>
        rw [hdr] at hn
        obtain ⟨L, hL, hx⟩ := hn
        refine ⟨⟨fun n => L.getD n true, d.chk, d.lrat⟩, rfl, rfl, ?_⟩
        have ha := Out.Buf.agrees_exists d L
        rw [show ended e _ n log args input out = _ from hk _ (hag L hL _ ha)]
        simp only [Option.bind_some, finishB, hdr, finish]
        rw [hx _ ha]
        rfl
      | some file =>
        rw [hdr] at hn
        obtain ⟨L, hL, hx⟩ := hn
        refine ⟨⟨fun n => L.getD n true, d.chk, d.lrat⟩, rfl, rfl, ?_⟩
        have ha := Out.Buf.agrees_exists d L
        obtain ⟨file', y1, y2, y3⟩ := hx _ ha
        rw [show ended e _ n log args input out = _ from hk _ (hag L hL _ ha)]
        simp only [Option.bind_some, finishB, hdr, finish, y1]
        refine ⟨file', rfl, y2, fun hc hv => y3 fun f hf => ?_⟩
        obtain ⟨z1, z2, z3, z4, z5, z6⟩ := endedB_verdict hd hb hc
        exact ⟨fun h => hv (h ▸ hf), z2, z3.trans hf, z6 (by rw [hf]; rfl), z4, z5⟩
  have hplain : ∀ r : Bytes × Nat × Option Bytes, Alike args (some r) (some r) := fun r => ⟨r.2.2, rfl, Near.refl _, fun _ _ => rfl⟩
  unfold solveDisk
  cases hp : args.proof with
  | none =>
    obtain ⟨env, k1, k2, k3⟩ := hgo out
    refine ⟨env, k1, k2, ?_⟩
    rw [solveFile_ended, hp]
    rw [hp] at k3
    exact k3
  | some pc =>
    obtain ⟨kind, creates⟩ := pc
    cases creates with
    | false =>
      refine ⟨⟨fun _ => true, d.chk, d.lrat⟩, rfl, rfl, ?_⟩
      rw [solveFile_ended, hp]
      cases kind <;> exact hplain _
    | true =>
      obtain ⟨env, k1, k2, k3⟩ := hgo (out ++ logLine log.proof)
      refine ⟨env, k1, k2, ?_⟩
      rw [solveFile_ended, hp]
      rw [hp] at k3
      cases kind <;> exact k3

theorem runDisk_alike (hd : d.Ok) (recip : Config.F32 → Config.F32) (env : Config.SolverConfig → Solver.Env α) (n : Nat) (log : Log) (args : FileArgs) :
    ∃ penv : Env, penv.chk = d.chk ∧ penv.lrat = d.lrat ∧ Alike args (runDisk recip env d n log args) (runFile recip env penv n log args) := by
  have hplain : ∀ r : Option (Bytes × Nat × Option Bytes), Alike args r r := fun r =>
    match r with
    | none => rfl
    | some r => ⟨r.2.2, rfl, Near.refl _, fun _ _ => rfl⟩
  have any : (∀ penv : Env, runFile recip env penv n log args = runDisk recip env d n log args) →
      ∃ penv : Env, penv.chk = d.chk ∧ penv.lrat = d.lrat ∧ Alike args (runDisk recip env d n log args) (runFile recip env penv n log args) := fun h1 =>
    ⟨⟨fun _ => true, d.chk, d.lrat⟩, rfl, rfl, by rw [h1]; exact hplain _⟩
  by_cases h0 : args.optionHelp = true
  · exact any fun penv => by unfold runFile runDisk; simp only [if_pos h0]
  cases h1 : mergeConfigs {} args.configs with
  | none => exact any fun penv => by unfold runFile runDisk; simp only [if_neg h0, h1]
  | some u =>
    rcases h2 : (Config.St.new recip).configure recip u with _ | ⟨c, er | ⟨⟩⟩
    · exact any fun penv => by unfold runFile runDisk; simp only [if_neg h0, h1, h2]
    · exact any fun penv => by unfold runFile runDisk; simp only [if_neg h0, h1, h2]
    · cases h3 : args.input with
      | none => exact any fun penv => by unfold runFile runDisk; simp only [if_neg h0, h1, h2, h3]
      | some input =>
        obtain ⟨penv, k1, k2, k3⟩ := solveDisk_alike (e := env c.config) hd n log args input (logLine log.banner1 ++ logLine log.banner2 ++ logLine log.reading)
        refine ⟨penv, k1, k2, ?_⟩
        unfold runDisk runFile
        simp only [if_neg h0, h1, h2, h3]
        exact k3

end Varisat.Cli

namespace Varisat.Out.Buf
open Lrat (Target)
open Lrat.Io (F)

/-! ### Targets that do not fail -/

/-- No call fails. -/
def Dev.Works (d : Dev) : Prop := ∀ i k, ¬ (d.target i).FailsAt k ∧ (d.target i).flush k = true

variable {d : Dev} {t : Target}

theorem flushBuf_works (ht : ∀ k, ¬ t.FailsAt k) (w : F) : ∃ w', Lrat.Io.flushBuf t w = .ok () w' := by
  unfold Lrat.Io.flushBuf
  rcases hd : Lrat.Io.drain t w.buf w.calls w.data with ⟨_ | _, buf, calls, data⟩
  · exact absurd ((Lrat.Io.drain_spec _ _ _ hd).2.2.2.2.1 rfl).2 (ht _)
  · exact ⟨_, rfl⟩

theorem putRest_works (ht : ∀ k, ¬ t.FailsAt k) (bs : Bytes) (w : F) : ∃ w', Lrat.Io.putRest t bs w = .ok () w' := by
  unfold Lrat.Io.putRest
  split
  · unfold Lrat.Io.writeDirect
    rcases hd : Lrat.Io.drain t bs w.calls w.data with ⟨_ | _, buf, calls, data⟩
    · exact absurd ((Lrat.Io.drain_spec _ _ _ hd).2.2.2.2.1 rfl).2 (ht _)
    · exact ⟨_, rfl⟩
  · exact ⟨_, rfl⟩

theorem ioPut_works (ht : ∀ k, ¬ t.FailsAt k) (bs : Bytes) (w : F) : ∃ w', Lrat.Io.put t bs w = .ok () w' := by
  unfold Lrat.Io.put
  simp only [bind, EStateM.bind, get, getThe, MonadStateOf.get, EStateM.get]
  split
  · exact ⟨_, rfl⟩
  · split
    · obtain ⟨w', h⟩ := flushBuf_works ht w
      obtain ⟨w2, h2⟩ := putRest_works ht bs w'
      exact ⟨w2, by unfold EStateM.bind; rw [h]; exact h2⟩
    · exact putRest_works ht bs w

theorem putAll_works (ht : ∀ k, ¬ t.FailsAt k) : ∀ (cs : List Bytes) (w : F), ∃ w', putAll t cs w = .ok () w'
  | [], w => ⟨w, rfl⟩
  | c :: cs, w => by
    unfold putAll
    simp only [bind, EStateM.bind]
    obtain ⟨w', h⟩ := ioPut_works ht c w
    obtain ⟨w2, h2⟩ := putAll_works ht cs w'
    exact ⟨w2, by rw [h]; exact h2⟩

theorem flushTarget_works (ht : ∀ k, ¬ t.FailsAt k) (hf : ∀ k, t.flush k = true) (w : F) : ∃ w', Lrat.Io.flushTarget t w = .ok () w' := by
  unfold Lrat.Io.flushTarget
  obtain ⟨w', h⟩ := flushBuf_works ht w
  simp only [bind, EStateM.bind, h, get, getThe, MonadStateOf.get, EStateM.get, hf, Bool.not_true, Bool.false_eq_true, if_false]
  exact ⟨_, rfl⟩

/-- No operation fails on the way. -/
def Clean (b b' : B) : Prop := false ∉ b.log → false ∉ b'.log

theorem Clean.refl (b : B) : Clean b b := id

theorem Clean.trans {a b c : B} (h : Clean a b) (h' : Clean b c) : Clean a c := fun x => h' (h x)

theorem put_clean (hw : d.Works) (b : B) (st : ProofStep) : (put d b st).2 = true ∧ Clean b (put d b st).1 := by
  unfold put
  simp only
  split
  · exact ⟨rfl, fun hb => by simpa using hb⟩
  · rename_i h
    obtain ⟨w', h'⟩ := putAll_works (t := b.target d) (fun k => (hw _ k).1) _ b.w
    rw [h'] at h
    cases h

theorem putStep_clean (hw : d.Works) (b : B) (st out : ProofStep) : (putStep d b st out).2 = true ∧ Clean b (putStep d b st out).1 := by
  have := put_clean hw b out
  unfold putStep
  rcases hq : put d b out with ⟨c, _ | _⟩
  · rw [hq] at this; cases this.1
  · rw [hq] at this; exact ⟨rfl, this.2⟩

theorem writeOut_clean (hw : d.Works) {b b' : B} {st : ProofStep} {ok : Bool} (h : writeOut d b st = some (b', ok)) : ok = true ∧ Clean b b' := by
  have hs : ∀ (c : B) (out : ProofStep), some (putStep d c st out) = some (b', ok) → ok = true ∧ Clean c b' := fun c out h => by
    have := putStep_clean hw c st out
    rw [Option.some.inj h] at this
    exact this
  unfold writeOut at h
  split at h
  · have hh : ∀ c : B, writeHashed d st c = some (b', ok) → ok = true ∧ Clean c b' := by
      intro c hc
      unfold writeHashed at hc
      split at hc
      · cases hc
      · exact hs _ _ hc
    unfold writeVarisat at h
    split at h
    · have hp := put_clean hw (count b st) (.changeHashBits (count b st).s.proof.hashBits)
      rcases hq : put d (count b st) (.changeHashBits (count b st).s.proof.hashBits) with ⟨c, _ | _⟩
      · rw [hq] at hp; cases hp.1
      · rw [hq] at h hp
        obtain ⟨k1, k2⟩ := hh c h
        exact ⟨k1, hp.2.trans k2⟩
    · exact (hh (count b st) h : ok = true ∧ Clean (count b st) b')
  · split at h
    · exact hs _ _ h
    · cases h
  · cases h; exact ⟨rfl, .refl _⟩

theorem tell_clean {b b' : B} {m : Checker.CM Unit} (h : tell d b m = some b') : Clean b b' := by
  unfold tell at h
  split at h
  · unfold handleCheck at h
    split at h
    · cases h; exact .refl _
    · cases h; exact .refl _
    · cases h
  · cases h; exact .refl _

theorem addStep_clean (hw : d.Works) {b b' : B} {st : ProofStep} (h : addStep d b st = some b') : Clean b b' := by
  unfold addStep at h
  split at h
  · cases h; exact .refl _
  · split at h
    · cases h
    · rename_i hc
      cases (writeOut_clean hw hc).1
    · rename_i c hc
      exact (writeOut_clean hw hc).2.trans (tell_clean h)

theorem exec_clean (hw : d.Works) {b b' : B} {ev : Ev} (h : exec d b ev = some b') : Clean b b' := by
  cases ev with
  | step st => exact addStep_clean hw h
  | clause c =>
    have h : addClause d b c = some b' := h
    unfold addClause at h
    by_cases hi : b.s.invoked = true
    · rw [if_pos hi] at h
      exact addStep_clean hw h
    · rw [if_neg hi] at h
      cases hc : tell d b (Checker.addClause d.chk c) with
      | none => rw [hc] at h; cases h
      | some c' =>
        rw [hc] at h
        cases h
        refine (tell_clean hc).trans ?_
        unfold counted; split
        · exact fun hb => hb
        · exact .refl _
  | sat v => cases h; exact fun hb => hb
  | nonEmpty => cases h; exact fun hb => hb

theorem runEvs_clean (hw : d.Works) {evs : List Ev} {b b' : B} (h : runEvs d evs b = some b') : Clean b b' := by
  induction evs generalizing b with
  | nil => cases h; exact .refl _
  | cons ev evs ih =>
    rw [runEvs] at h
    split at h
    · cases h
    · rename_i c hc
      exact (exec_clean hw hc).trans (ih h)

theorem flush_clean (hw : d.Works) (b : B) : Clean b (flush d b) := by
  unfold flush
  split
  · obtain ⟨w', h⟩ := flushTarget_works (t := b.target d) (fun k => (hw _ k).1) (fun k => (hw _ k).2) b.w
    simp only [h]
    exact fun hb => by simpa using hb
  · exact .refl _

theorem close_clean (hw : d.Works) {b b' : B} {r : Option Ret} (h : close d b = some (b', r)) : Clean b b' := by
  unfold close closeOutput at h
  cases h1 : addStep d b .end_ with
  | none => rw [h1] at h; cases h
  | some b1 =>
    rw [h1] at h
    have k : Clean b (takeError (retarget d none (flush d b1))).1 := fun hb => flush_clean hw b1 (addStep_clean hw h1 hb)
    simp only at h
    rcases ht : takeError (retarget d none (flush d b1)) with ⟨c, _ | _⟩
    all_goals
      rw [ht] at h k
      cases h
      exact k

/-- What is dropped is in the target. -/
theorem discard_works (ht : ∀ k, ¬ t.FailsAt k) (w : F) : (discard t w).data = w.data ++ w.buf := by
  unfold discard Lrat.Io.flushBuf
  rcases hd : Lrat.Io.drain t w.buf w.calls w.data with ⟨_ | _, buf, calls, data⟩
  · exact absurd ((Lrat.Io.drain_spec _ _ _ hd).2.2.2.2.1 rfl).2 (ht _)
  · obtain ⟨h1, -, -, h2, -⟩ := Lrat.Io.drain_spec _ _ _ hd
    rw [(h2 rfl).1, List.append_nil] at h1
    simpa using h1

/-- The only target is in use, or it was dropped with all steps. -/
def Full (f : Option Format) (b : B) : Prop :=
  b.s.proof.format = f ∧ b.files = [] ∧ b.s.files = [] ∨
    b.s.proof.format = none ∧ ∀ g, f = some g → ∃ x : File, b.s.files = [x] ∧ x.format = g ∧ b.files = [enc g x.written]

variable {f : Option Format}

theorem Full.congr {b b' : B} (h : Full f b) (h1 : b'.s.proof.format = b.s.proof.format) (h2 : b'.files = b.files) (h3 : b'.s.files = b.s.files) : Full f b' := by
  unfold Full
  rw [h1, h2, h3]
  exact h

theorem Full.left (hw : d.Works) {b : B} (hi : Inv b) (h : Full f b) :
    ∀ g, f = some g → ∃ x : File, b.s.files ++ b.s.proof.file = [x] ∧ x.format = g ∧ b.files ++ b.left d = [enc g x.written] := by
  intro g hg
  unfold B.left Proof.file
  rcases h with ⟨h1, h2, h3⟩ | ⟨h1, h2⟩
  · rw [hg] at h1
    refine ⟨⟨g, b.s.proof.given, b.s.proof.written⟩, ?_, rfl, ?_⟩
    · rw [h1, h3]; rfl
    · rw [h1, h2, discard_works (t := b.target d) fun k => (hw _ k).1]
      have ht : enc g b.s.proof.written = _ := (hi.cur g h1).target
      rw [← ht]
      rfl
  · obtain ⟨x, k1, k2, k3⟩ := h2 g hg
    exact ⟨x, by rw [h1, k1]; rfl, k2, by rw [h1, k3]; rfl⟩

theorem Full.drop (hw : d.Works) {b : B} (hi : Inv b) (h : Full f b) : Full f (b.drop d) := .inr ⟨rfl, h.left hw hi⟩

theorem Full.tell (hw : d.Works) {b b' : B} {m : Checker.CM Unit} (hi : Inv b) (h : Full f b) (ht : tell d b m = some b') : Full f b' := by
  unfold Out.Buf.tell at ht
  split at ht
  · unfold handleCheck at ht
    split at ht
    · cases ht; exact h.congr rfl rfl rfl
    · cases ht; exact (h.drop hw hi).congr rfl rfl rfl
    · cases ht
  · cases ht; exact h

theorem Full.flush (hw : d.Works) {b : B} (h : Full f b) : Full f (flush d b) := by
  unfold Out.Buf.flush
  split
  · obtain ⟨w', hf⟩ := flushTarget_works (t := b.target d) (fun k => (hw _ k).1) (fun k => (hw _ k).2) b.w
    simp only [hf]
    exact h.congr rfl rfl rfl
  · exact h

theorem writeOut_format {b b' : B} {st : ProofStep} (h : writeOut d b st = some (b', true)) :
    b'.s.proof.format = b.s.proof.format ∧ b'.files = b.files ∧ b'.s.files = b.s.files := by
  have hs : ∀ (c : B) (out : ProofStep), some (putStep d c st out) = some (b', true) →
      b'.s.proof.format = c.s.proof.format ∧ b'.files = c.files ∧ b'.s.files = c.s.files := fun c out h =>
    have k := putStep_keeps (Option.some.inj h)
    ⟨k.format, k.files, k.sfiles⟩
  unfold writeOut at h
  split at h
  · have hh : ∀ c : B, writeHashed d st c = some (b', true) → b'.s.proof.format = c.s.proof.format ∧ b'.files = c.files ∧ b'.s.files = c.s.files := by
      intro c hc
      unfold writeHashed at hc
      split at hc
      · cases hc
      · exact hs _ _ hc
    unfold writeVarisat at h
    split at h
    · obtain ⟨h1, h2, h3, h4, -⟩ := put_keeps d (count b st) (.changeHashBits (count b st).s.proof.hashBits)
      rcases hq : put d (count b st) (.changeHashBits (count b st).s.proof.hashBits) with ⟨c, _ | _⟩
      · rw [hq] at h; cases h
      · rw [hq] at h h1 h2 h3
        obtain ⟨k1, k2, k3⟩ := hh c h
        exact ⟨k1.trans h3, k2.trans h1, k3.trans h2⟩
    · exact hh (count b st) h
  · split at h
    · exact hs _ _ h
    · cases h
  · cases h; exact ⟨rfl, rfl, rfl⟩

theorem Full.addStep (hd : d.Ok) (hw : d.Works) {b b' : B} {st : ProofStep} (hi : Inv b) (h : Full f b) (ha : addStep d b st = some b') : Full f b' := by
  unfold Out.Buf.addStep at ha
  split at ha
  · cases ha; exact h
  · split at ha
    · cases ha
    · rename_i hc
      cases (writeOut_clean hw hc).1
    · rename_i c hc
      obtain ⟨k1, k2, k3⟩ := writeOut_format hc
      have hr := writeOut_runs hd hi st
      rw [hc] at hr
      have hci : Inv c := by have := hr.1; simpa using this
      exact (h.congr k1 k2 k3).tell hw hci ha

theorem Full.exec (hd : d.Ok) (hw : d.Works) {b b' : B} {ev : Ev} (hi : Inv b) (hh : Full f b) (h : exec d b ev = some b') : Full f b' := by
  cases ev with
  | step st => exact hh.addStep hd hw hi h
  | clause c =>
    have h : addClause d b c = some b' := h
    unfold addClause at h
    by_cases hn : b.s.invoked = true
    · rw [if_pos hn] at h
      exact hh.addStep hd hw hi h
    · rw [if_neg hn] at h
      cases hc : Out.Buf.tell d b (Checker.addClause d.chk c) with
      | none => rw [hc] at h; cases h
      | some c' =>
        rw [hc] at h
        cases h
        have := hh.tell hw hi hc
        unfold counted; split
        · exact this.congr rfl rfl rfl
        · exact this
  | sat v => cases h; exact hh.congr rfl rfl rfl
  | nonEmpty => cases h; exact hh.congr rfl rfl rfl

theorem Full.runEvs (hd : d.Ok) (hw : d.Works) {evs : List Ev} {b b' : B} (hi : Inv b) (hh : Full f b) (h : runEvs d evs b = some b') : Full f b' := by
  induction evs generalizing b with
  | nil => cases h; exact hh
  | cons ev evs ih =>
    rw [Out.Buf.runEvs] at h
    split at h
    · cases h
    · rename_i c hc
      have hr := exec_runs hd hi ev
      rw [hc] at hr
      exact ih hr.1 (hh.exec hd hw hi hc) h

theorem Full.close (hd : d.Ok) (hw : d.Works) {b b' : B} {r : Option Ret} (hi : Inv b) (hh : Full f b) (h : close d b = some (b', r)) :
    ∀ g, f = some g → ∃ x : File, b'.s.files = [x] ∧ x.format = g ∧ b'.files = [enc g x.written] := by
  unfold Out.Buf.close closeOutput at h
  have hr := addStep_runs hd hi .end_
  cases h1 : Out.Buf.addStep d b .end_ with
  | none => rw [h1] at h; cases h
  | some b1 =>
    rw [h1] at h hr
    have hf := (hh.addStep hd hw hi h1).flush hw
    have hfi : Inv (Out.Buf.flush d b1) := (flush_runs hr.1).1.1
    have k := hf.left hw hfi
    have k : ∀ g, f = some g → ∃ x : File, (takeError (retarget d none (Out.Buf.flush d b1))).1.s.files = [x] ∧ x.format = g ∧
        (takeError (retarget d none (Out.Buf.flush d b1))).1.files = [enc g x.written] := fun g hg => by
      obtain ⟨x, k1, k2, k3⟩ := k g hg
      refine ⟨x, ?_, k2, k3⟩
      rw [← k1]
      show (Out.takeError _).1.files = _
      unfold Out.takeError
      split <;> rfl
    simp only at h
    rcases ht : takeError (retarget d none (Out.Buf.flush d b1)) with ⟨c, _ | _⟩
    all_goals
      rw [ht] at h k
      cases h
      exact k

end Varisat.Out.Buf

namespace Varisat.Cli
open Out (Env)
open Out.Buf (B Dev Runs Inv Agrees Clean)
open Solver (St Stop)

variable {α : Type} [LinearOrder α] {d : Dev} {e : Solver.Env α}

theorem jointB_clean (hw : d.Works) {op : Solver.Op} {b b' : B} {s s' : St α} {r : List Nat} {er : Option Out.SErr}
    (hj : jointB e d op s b = some (s', b', r, er)) : Clean b b' := by
  unfold jointB at hj
  split at hj
  · cases hj
  · split at hj
    · split at hj
      · cases hj
      · split at hj
        · cases hj
        · rename_i b1 h1
          split at hj
          · cases hj
          · rename_i b2 h2
            cases hj
            unfold Out.Buf.solveFinished at h2
            exact fun hb => (Out.Buf.tell_clean h2 : Clean _ b2) (Out.Buf.flush_clean hw b1 (Out.Buf.runEvs_clean hw h1 hb))
    · split at hj
      · cases hj
      · rename_i h1
        cases hj
        exact Out.Buf.runEvs_clean hw h1

theorem loadB_clean (hw : d.Works) {cs : List (List Lit)} {s s' : St α} {b b' : B} (h : loadB e d cs (s, b) = some (s', b')) : Clean b b' := by
  induction cs generalizing s b with
  | nil => cases h; exact .refl _
  | cons c cs ih =>
    unfold loadB at h
    cases hj : jointB e d (.addClause c) s b with
    | none => simp only [hj] at h; cases h
    | some x =>
      simp only [hj] at h
      exact (jointB_clean hw hj).trans (ih h)

theorem addFormulasB_clean (hw : d.Works) {fs : List CnfFormula} {s s' : St α} {b b' : B} (h : addFormulasB e d fs (s, b) = some (s', b')) : Clean b b' := by
  induction fs generalizing s b with
  | nil => cases h; exact .refl _
  | cons f fs ih =>
    unfold addFormulasB at h
    split at h
    · cases h
    · split at h
      · cases h
      · rename_i q hq
        obtain ⟨s1, b1⟩ := q
        exact (loadB_clean hw hq).trans (ih h)

theorem endedB_clean (hw : d.Works) {n : Nat} {log : Log} {args : FileArgs} {input : Source} {out out' : Bytes} {code : Nat} {b : B}
    (h : endedB e d n log args input out = some (out', code, b)) : false ∉ b.log := by
  unfold endedB at h
  split at h
  · cases h; exact nofun
  · simp only at h
    split at h
    · cases h
    · rename_i s1 b1 h1
      have k1 := addFormulasB_clean hw h1 nofun
      split at h
      · cases h; exact k1
      · split at h
        · cases h
        · rename_i a code' b2 h2
          cases h
          unfold answerB at h2
          split at h2
          · cases h2
          · rename_i hj
            cases h2; exact jointB_clean hw hj k1
          · rename_i hj
            split at h2
            · cases h2; exact jointB_clean hw hj k1
            · split at h2
              · cases h2; exact jointB_clean hw hj k1
              · cases h2

theorem jointB_full (hd : d.Ok) (hw : d.Works) {f : Option Out.Format} {op : Solver.Op} {b b' : B} {s s' : St α} {r : List Nat} {er : Option Out.SErr}
    (hi : Inv b) (hf : Out.Buf.Full f b) (hj : jointB e d op s b = some (s', b', r, er)) : Out.Buf.Full f b' := by
  unfold jointB at hj
  split at hj
  · cases hj
  · rename_i s1 r1 _
    split at hj
    · split at hj
      · cases hj
      · have h0 : Inv { b with s := { b.s with invoked := true } } := hi.congr rfl rfl rfl rfl rfl rfl rfl
        have f0 : Out.Buf.Full f { b with s := { b.s with invoked := true } } := hf.congr rfl rfl rfl
        have hr := Out.Buf.runEvs_runs hd ((s1.log.drop s.log.length).map Solver.toEv) h0
        split at hj
        · cases hj
        · rename_i b1 h1
          rw [h1] at hr
          have i1 : Inv b1 := hr.1
          have f1 := f0.runEvs hd hw h0 h1
          split at hj
          · cases hj
          · rename_i b2 h2
            cases hj
            unfold Out.Buf.solveFinished at h2
            have f2 := (f1.flush hw).tell hw (Out.Buf.flush_runs i1).1.1 h2
            refine f2.congr ?_ rfl ?_
            · show (Out.takeError b2.s).1.proof.format = _
              unfold Out.takeError; split <;> rfl
            · show (Out.takeError b2.s).1.files = _
              unfold Out.takeError; split <;> rfl
    · split at hj
      · cases hj
      · rename_i h1
        cases hj
        exact hf.runEvs hd hw hi h1

theorem loadB_full (hd : d.Ok) (hw : d.Works) {f : Option Out.Format} {cs : List (List Lit)} {s s' : St α} {b b' : B} (hi : Inv b) (hf : Out.Buf.Full f b)
    (h : loadB e d cs (s, b) = some (s', b')) : Out.Buf.Full f b' := by
  induction cs generalizing s b with
  | nil => cases h; exact hf
  | cons c cs ih =>
    unfold loadB at h
    have hr := jointB_runs (e := e) hd hi (.addClause c) s
    cases hj : jointB e d (.addClause c) s b with
    | none => simp only [hj] at h; cases h
    | some x =>
      rw [hj] at hr
      simp only [hj] at h
      exact ih hr.1 (jointB_full hd hw hi hf hj) h

theorem addFormulasB_full (hd : d.Ok) (hw : d.Works) {f : Option Out.Format} {fs : List CnfFormula} {s s' : St α} {b b' : B} (hi : Inv b) (hf : Out.Buf.Full f b)
    (h : addFormulasB e d fs (s, b) = some (s', b')) : Inv b' ∧ Out.Buf.Full f b' := by
  induction fs generalizing s b with
  | nil => cases h; exact ⟨hi, hf⟩
  | cons g fs ih =>
    unfold addFormulasB at h
    split at h
    · cases h
    · rename_i cs _
      have hr := loadB_runs (e := e) hd cs (s := s) hi
      split at h
      · cases h
      · rename_i q hq
        obtain ⟨s1, b1⟩ := q
        rw [hq] at hr
        exact ih hr.1 (loadB_full hd hw hi hf hq) h

theorem endedB_full (hd : d.Ok) (hw : d.Works) {n : Nat} {log : Log} {args : FileArgs} {input : Source} {out out' : Bytes} {code : Nat} {b : B}
    (h : endedB e d n log args input out = some (out', code, b)) : Out.Buf.Full args.format b := by
  have f0 : Out.Buf.Full args.format { s := args.sess } := .inl ⟨by rw [args.sess_eq]; rfl, rfl, by rw [args.sess_eq]; rfl⟩
  unfold endedB at h
  split at h
  · cases h; exact f0
  · simp only at h
    split at h
    · cases h
    · rename_i s1 b1 h1
      obtain ⟨i1, k1⟩ := addFormulasB_full hd hw (inv_sess args) f0 h1
      split at h
      · cases h; exact k1
      · split at h
        · cases h
        · rename_i a code' b2 h2
          cases h
          unfold answerB at h2
          split at h2
          · cases h2
          · rename_i hj
            cases h2; exact jointB_full hd hw i1 k1 hj
          · rename_i hj
            split at h2
            · cases h2; exact jointB_full hd hw i1 k1 hj
            · split at h2
              · cases h2; exact jointB_full hd hw i1 k1 hj
              · cases h2

/-- The environment in which nothing fails. -/
def working (d : Dev) : Env := ⟨fun _ => true, d.chk, d.lrat⟩

theorem agrees_working {L : List Bool} (h : false ∉ L) : Agrees d (working d) L :=
  ⟨rfl, rfl, fun n x hx => by
    cases x with
    | true => rfl
    | false => exact absurd (List.mem_of_getElem? hx) h⟩

theorem solveDisk_works (hd : d.Ok) (hw : d.Works) {n : Nat} {log : Log} {args : FileArgs} {input : Source} {out : Bytes} {r : Bytes × Nat × Option Bytes}
    (h : solveDisk e d n log args input out = some r) : solveFile e (working d) n log args input out = some r := by
  have hgo : ∀ out, (endedB e d n log args input out).bind (finishB d (args.proof.map (·.1))) = some r →
      ((ended e (working d) n log args input out).bind fun x => finish (working d) (args.proof.map (·.1)) x.1 x.2.1 x.2.2) = some r := by
    intro out h
    have hr := endedB_runs (e := e) hd n log args input out
    cases hb : endedB e d n log args input out with
    | none => rw [hb] at h; cases h
    | some x =>
      obtain ⟨out', code, b⟩ := x
      rw [hb] at hr h
      obtain ⟨⟨hi, -⟩, -, hk⟩ := hr
      have hcl := endedB_clean hw hb
      have hfu := endedB_full hd hw hb
      rw [show ended e (working d) n log args input out = _ from hk _ (agrees_working hcl)]
      simp only [Option.bind_some, finishB, finish] at h ⊢
      have hr := Out.Buf.close_runs hd hi
      cases hc : Out.Buf.close d b with
      | none => unfold droppedB at h; rw [hc] at h; cases h
      | some c =>
        obtain ⟨b', r0⟩ := c
        rw [hc] at hr
        have hx : ∃ r', Out.close (working d) b.s = some (b'.s, r') := by
          have hn := hr.2.2 _ (agrees_working (Out.Buf.close_clean hw hc hcl))
          cases hx : Out.close (working d) b.s with
          | none => simp only [hx] at hn; cases hn
          | some y =>
            simp only [hx, Option.map_some, Option.some.injEq] at hn
            obtain ⟨s, r'⟩ := y
            cases r0 with
            | none => cases hn
            | some r0 => cases hn; exact ⟨_, rfl⟩
        obtain ⟨r', hx⟩ := hx
        suffices hs : dropped (working d) (args.proof.map (·.1)) b.s = droppedB d (args.proof.map (·.1)) b by rw [hs]; exact h
        unfold dropped droppedB
        rw [hx, hc]
        cases hp : args.proof with
        | none => rfl
        | some pc =>
          obtain ⟨kind, creates⟩ := pc
          cases kind with
          | lrat binary => rfl
          | steps f =>
            obtain ⟨x, k1, k2, k3⟩ := hfu.close hd hw hi hc f (by unfold FileArgs.format; rw [hp])
            have hl : Out.Buf.Left (Out.Buf.enc f x.written) x := by
              have := hr.1.files
              simp only at this
              rw [k1, k3] at this
              cases this; assumption
            obtain ⟨tail, -, hsup, -⟩ := hl
            have hsup : Out.Buf.Sup f x.written := fun hv st hst => hsup (by rw [k2]; exact hv) st (List.mem_append_left _ hst)
            have hw' := hsup.whole
            simp only [Option.map_some, k1, k3, List.getLast?_singleton]
            cases f with
            | varisat => rfl
            | drat => show (Drat.output false x.written).map some = _; rw [hw']; rfl
            | binaryDrat => show (Drat.output true x.written).map some = _; rw [hw']; rfl
  unfold solveDisk at h
  rw [solveFile_ended]
  cases hp : args.proof with
  | none =>
    simp only [hp] at h hgo ⊢
    exact hgo _ h
  | some pc =>
    obtain ⟨kind, _ | _⟩ := pc
    · simp only [hp] at h ⊢
      cases kind <;> exact h
    · simp only [hp] at h hgo ⊢
      cases kind <;> exact hgo _ h

theorem runDisk_works (hd : d.Ok) (hw : d.Works) {recip : Config.F32 → Config.F32} {env : Config.SolverConfig → Solver.Env α} {n : Nat} {log : Log}
    {args : FileArgs} {r : Bytes × Nat × Option Bytes} (h : runDisk recip env d n log args = some r) : runFile recip env (working d) n log args = some r := by
  unfold runDisk at h
  unfold runFile
  by_cases h0 : args.optionHelp = true
  · simp only [if_pos h0] at h ⊢; exact h
  simp only [if_neg h0] at h ⊢
  cases h1 : mergeConfigs {} args.configs with
  | none => simp only [h1] at h ⊢; exact h
  | some u =>
    simp only [h1] at h ⊢
    rcases h2 : (Config.St.new recip).configure recip u with _ | ⟨c, er | ⟨⟩⟩
    · simp only [h2] at h; cases h
    · simp only [h2] at h ⊢; exact h
    · simp only [h2] at h ⊢
      cases h3 : args.input with
      | none => simp only [h3] at h ⊢; exact h
      | some input =>
        simp only [h3] at h ⊢
        exact solveDisk_works hd hw h

/-! ### Fuel -/

theorem addFormulasJoint_flat_ok {env : Env} {fs : List CnfFormula} {css : List (List (List Lit))} {q q' : St α × Out.Sess} (hm : fs.mapM CnfFormula.iter = some css)
    (h : addFormulasJoint e env fs q = .ok q') : css.flatten.foldlM (fun s c => s.loadClause e c) q.1 = .ok q'.1 := by
  rw [addFormulasJoint_flat hm] at h
  exact loadJoint_ok h

/-- The input has the clauses `cs`, and the search for them has an end: more fuel changes nothing. -/
theorem fuel (he : e.Ok) (log : Log) {args : FileArgs} {i : Source} {f : CnfFormula} {cs : List (List Lit)}
    (hf : DimacsParser.parse [i.chunks.flatten] = .ok f) (hcs : f.iter = some cs) :
    ∃ N, ∀ n, N ≤ n → (∀ env out, solveFile e env n log args i out = solveFile e env N log args i out) ∧
      ∀ d : Dev, d.Ok → ∀ out, solveDisk e d n log args i out = solveDisk e d N log args i out := by
  obtain ⟨p, fs, css, a1, a2, a3⟩ := parts hf hcs
  obtain ⟨s, h1, x⟩ := load_total he cs (pre := []) (Solver.Exec.new e)
  rw [List.nil_append] at x
  obtain ⟨N, s', r, k1, -, -⟩ := C54.decides x (plain_clauses cs) he
  refine ⟨N, fun n hn => ⟨fun env out => ?_, fun d hd out => ?_⟩⟩
  · have hj : ∀ o, answerJoint e env n log s o = answerJoint e env N log s o := fun o => by
      unfold answerJoint St.joint
      rw [k1 n hn, k1 N (Nat.le_refl _)]
    have hg : ∀ out, ended e env n log args i out = ended e env N log args i out := by
      intro out
      unfold ended
      rw [a1]
      simp only
      cases ha : addFormulasJoint e env fs (St.new e, args.sess) with
      | error _ => rfl
      | ok q =>
        obtain ⟨s2, o⟩ := q
        have := addFormulasJoint_flat_ok a2 ha
        rw [a3, h1] at this
        cases this
        simp only [hj]
    rw [solveFile_ended, solveFile_ended]
    simp only [hg]
  · have hj : ∀ b, answerB e d n log s b = answerB e d N log s b := fun b => by
      unfold answerB jointB
      rw [k1 n hn, k1 N (Nat.le_refl _)]
    have hg : ∀ out, endedB e d n log args i out = endedB e d N log args i out := by
      intro out
      unfold endedB
      rw [a1]
      simp only
      have hr := addFormulasB_runs (e := e) hd fs (s := St.new e) (inv_sess args)
      cases ha : addFormulasB e d fs (St.new e, { s := args.sess }) with
      | none => rfl
      | some q =>
        obtain ⟨s2, b⟩ := q
        rw [ha] at hr
        have hx := hr.2.2 _ (Out.Buf.agrees_exists d b.log)
        simp only at hx
        obtain rfl : s2 = s := by
          cases hy : addFormulasJoint e ⟨fun n => b.log.getD n true, d.chk, d.lrat⟩ fs (St.new e, args.sess) with
          | error _ => rw [hy] at hx; cases hx
          | ok q =>
            rw [hy] at hx
            cases hx
            have := addFormulasJoint_flat_ok a2 hy
            rw [a3, h1] at this
            cases this; rfl
        simp only [hj]
    unfold solveDisk
    simp only [hg]

end Varisat.Cli
