import Verif.Proof.CliFile
import Verif.Proof.HeardOut
import Verif.Proof.LenientOut
/-!
# Proof files of the command line tool when writing fails
-/
namespace Varisat.Out

variable {env : Env} {f : Option Format}

/-- There is one file for a format, and a DRAT file only has steps that can be written as DRAT. -/
def OneFile (f : Option Format) (o : Sess) : Prop :=
  (o.files ++ o.proof.file).map File.format = f.toList ∧
    ∀ x ∈ o.files ++ o.proof.file, x.format ≠ .varisat → ∀ st ∈ x.written, (Drat.steps st).isSome

theorem OneFile.congr {o o' : Sess} (h : OneFile f o) (h1 : o'.files = o.files) (h2 : o'.proof.file = o.proof.file) : OneFile f o' := by
  unfold OneFile; rw [h1, h2]; exact h

theorem OneFile.drop {o : Sess} (h : OneFile f o) : OneFile f o.drop := by
  unfold OneFile Sess.drop
  have := h
  unfold OneFile at this
  simpa [Proof.file] using this

/-- Writing a step. -/
theorem OneFile.written {o o' : Sess} (h : OneFile f o) {L : List ProofStep} (h1 : o'.files = o.files) (h2 : o'.proof.format = o.proof.format)
    (h3 : o'.proof.written = o.proof.written ++ L) (hL : ∀ g, o.proof.format = some g → g ≠ .varisat → ∀ st ∈ L, (Drat.steps st).isSome) : OneFile f o' := by
  unfold OneFile at h ⊢
  rw [h1]
  unfold Proof.file at h ⊢
  rw [h2]
  cases hf : o.proof.format with
  | none => rw [hf] at h; exact h
  | some g =>
    rw [hf] at h
    refine ⟨by simpa using h.1, fun x hx hg st hst => ?_⟩
    rcases List.mem_append.1 hx with hx | hx
    · exact h.2 x (List.mem_append_left _ hx) hg st hst
    · obtain rfl := List.mem_singleton.1 hx
      simp only at hg hst
      rw [h3] at hst
      rcases List.mem_append.1 hst with hst | hst
      · exact h.2 _ (List.mem_append_right _ (List.mem_singleton.2 rfl)) hg st hst
      · exact hL g hf hg st hst

theorem put_files (s : Sess) (st : ProofStep) : (put env s st).1.files = s.files ∧ (put env s st).1.proof.format = s.proof.format ∧
    ∃ L, (put env s st).1.proof.written = s.proof.written ++ L ∧ ∀ x ∈ L, x = st := by
  unfold put
  split
  · exact ⟨rfl, rfl, [st], rfl, by simp⟩
  · exact ⟨rfl, rfl, [], by simp, by simp⟩

theorem putStep_files (s : Sess) (st out : ProofStep) : (putStep env s st out).1.files = s.files ∧ (putStep env s st out).1.proof.format = s.proof.format ∧
    ∃ L, (putStep env s st out).1.proof.written = s.proof.written ++ L ∧ ∀ x ∈ L, x = out := by
  have := put_files (env := env) s out
  unfold putStep
  generalize put env s out = z at *
  obtain ⟨a, b⟩ := z
  simp only at this ⊢
  split <;> exact this

theorem OneFile.writeOut {o o' : Sess} {st : ProofStep} {ok : Bool} (h : OneFile f o) (hw : writeOut env o st = some (o', ok)) : OneFile f o' := by
  unfold Out.writeOut at hw
  split at hw
  · rename_i hf
    have hno : ∀ g, o.proof.format = some g → g ≠ .varisat → False := fun g hg hv => by
      rw [hf] at hg; cases hg; exact hv rfl
    unfold writeVarisat at hw
    simp only at hw
    set s1 : Sess := { o with proof := { o.proof with count := o.proof.count + delta st, hashBits := nextBits o.invoked (o.proof.count + delta st) o.proof.hashBits } } with hs1
    split at hw
    · obtain ⟨p1, p2, L, p3, -⟩ := put_files (env := env) s1 (.changeHashBits (nextBits o.invoked (o.proof.count + delta st) o.proof.hashBits))
      generalize put env s1 (.changeHashBits (nextBits o.invoked (o.proof.count + delta st) o.proof.hashBits)) = z at *
      obtain ⟨s2, b⟩ := z
      simp only at hw p1 p2 p3
      split at hw
      · cases hw; exact h.written p1 p2 p3 (fun g hg hv => (hno g hg hv).elim)
      · split at hw
        · cases hw
        · obtain ⟨q1, q2, L', q3, -⟩ := putStep_files (env := env) s2 st
            (mapHashes (· >>> (64 - nextBits o.invoked (o.proof.count + delta st) o.proof.hashBits)) st)
          have hw := congrArg Prod.fst (Option.some.inj hw)
          rw [hw] at q1 q2 q3
          exact h.written (L := L ++ L') (q1.trans p1) (q2.trans p2) (by rw [q3, p3, List.append_assoc]) (fun g hg hv => (hno g hg hv).elim)
    · simp only [Bool.not_true, Bool.false_eq_true, if_false] at hw
      split at hw
      · cases hw
      · obtain ⟨q1, q2, L', q3, -⟩ := putStep_files (env := env) s1 st
            (mapHashes (· >>> (64 - nextBits o.invoked (o.proof.count + delta st) o.proof.hashBits)) st)
        have hw := congrArg Prod.fst (Option.some.inj hw)
        rw [hw] at q1 q2 q3
        exact h.written q1 q2 q3 (fun g hg hv => (hno g hg hv).elim)
  · split at hw
    · rename_i hd
      obtain ⟨q1, q2, L', q3, q4⟩ := putStep_files (env := env) o st st
      have hw := congrArg Prod.fst (Option.some.inj hw)
      rw [hw] at q1 q2 q3
      exact h.written q1 q2 q3 (fun _ _ _ x hx => by rw [q4 x hx]; exact hd)
    · cases hw
  · cases hw; exact h

theorem OneFile.tell {o o' : Sess} {m : Checker.CM Unit} (h : OneFile f o) (hw : tell o m = some o') : OneFile f o' := by
  unfold Out.tell at hw
  split at hw
  · rename_i c hc
    cases hm : m c with
    | ok u K => rw [hm] at hw; cases hw; exact h.congr rfl rfl
    | error x K =>
      rw [hm] at hw
      cases x <;> cases hw
      exact h.drop.congr rfl rfl
  · cases hw; exact h

theorem OneFile.addStep {o o' : Sess} {st : ProofStep} (h : OneFile f o) (hw : addStep env o st = some o') : OneFile f o' := by
  unfold Out.addStep at hw
  split at hw
  · cases hw; exact h
  · split at hw
    · cases hw
    · rename_i s hs
      cases hw
      exact (h.writeOut hs).drop.congr rfl rfl
    · rename_i s hs
      exact (h.writeOut hs).tell hw

theorem OneFile.addClause {o o' : Sess} {c : List Lit} (h : OneFile f o) (hw : addClause env o c = some o') : OneFile f o' := by
  unfold Out.addClause at hw
  split at hw
  · exact h.addStep hw
  · split at hw
    · cases hw
    · rename_i s hs
      cases hw
      split
      · exact (h.tell hs).congr rfl rfl
      · exact h.tell hs

theorem OneFile.flush {o : Sess} (h : OneFile f o) : OneFile f (flush env o) := by
  unfold Out.flush handleIo
  split
  · split
    · exact h.congr rfl rfl
    · exact (h.congr (o' := { o with ios := o.ios + 1 }) rfl rfl).drop.congr rfl rfl
  · exact h

theorem OneFile.runEvs : ∀ {L : List Ev} {o o' : Sess}, OneFile f o → runEvs env L o = some o' → OneFile f o'
  | [], o, o', h, hw => by cases hw; exact h
  | ev :: L, o, o', h, hw => by
    unfold Out.runEvs at hw
    split at hw
    · cases hw
    · rename_i s hs
      refine OneFile.runEvs ?_ hw
      cases ev with
      | step st => exact h.addStep hs
      | clause c => exact h.addClause hs
      | sat v => cases hs; exact h.congr rfl rfl
      | nonEmpty => cases hs; exact h.congr rfl rfl

theorem OneFile.takeError {o : Sess} (h : OneFile f o) : OneFile f (takeError o).1 := by
  unfold Out.takeError
  split
  · exact h.congr rfl rfl
  · exact h

theorem OneFile.close {o o' : Sess} {r : Ret} (h : OneFile f o) (hw : close env o = some (o', r)) : OneFile f o' ∧ o'.proof.format = none := by
  unfold Out.close at hw
  split at hw
  · cases hw
  · rename_i s hs
    unfold closeOutput at hs
    split at hs
    · cases hs
    · rename_i t ht
      have k : OneFile f s ∧ s.proof.format = none := by
        cases hs
        refine ⟨?_, rfl⟩
        have := (h.addStep ht).flush (env := env)
        unfold OneFile at this ⊢
        simpa [Proof.file] using this
      have k' : OneFile f (Out.takeError s).1 ∧ (Out.takeError s).1.proof.format = none := by
        refine ⟨k.1.takeError, ?_⟩
        unfold Out.takeError
        split <;> exact k.2
      generalize Out.takeError s = z at *
      obtain ⟨u, er⟩ := z
      cases er <;> (simp only at hw; cases hw; exact k')

end Varisat.Out

namespace Varisat.Solver

variable {α : Type} [LinearOrder α] {e : Env α} {env : Out.Env} {f : Option Out.Format} {check : Bool}

theorem setup_oneFile : Out.OneFile f (setup f check) := by
  unfold Out.OneFile setup Out.Proof.file
  cases f <;> simp

theorem joint_oneFile {s s' : St α} {o o' : Out.Sess} {op : Op} {r : List Nat} {er : Option Out.SErr} (h : Out.OneFile f o)
    (hj : s.joint e env op o = .ok (s', o', r, er)) : Out.OneFile f o' := by
  unfold St.joint at hj
  split at hj
  · cases hj
  · split at hj
    · split at hj
      · cases hj
      · split at hj
        · cases hj
        · rename_i t ht
          split at hj
          · cases hj
          · rename_i u hu
            cases hj
            have h1 : Out.OneFile f t := Out.OneFile.runEvs (h.congr (o' := { o with invoked := true }) rfl rfl) ht
            unfold Out.solveFinished at hu
            exact (h1.flush.tell hu).takeError
    · split at hj
      · cases hj
      · rename_i t ht
        cases hj
        exact Out.OneFile.runEvs h ht

end Varisat.Solver

namespace Varisat.Solver

open Api
open Checker (Accepting)

variable {α : Type} [LinearOrder α] {e : Env α} {env : Out.Env} {f : Option Out.Format} {check : Bool}

/-- After an error the proof output is gone. -/
theorem joint_dead (ha : Accepting env.chk) {s s' : St α} {o o' : Out.Sess} {h : Hist} {n : Nat} {r : List Nat} {y : Out.SErr}
    (x : Joint env f check s o h) (he : e.Ok) (hj : s.joint e env (.solve n) o = .ok (s', o', r, some y)) (l : Limits f s') :
    o'.error = none ∧ o'.proof.checker = none ∧ o'.proof.format = none := by
  have hs := St.step_of_joint hj
  obtain ⟨i1, i2, s0, i3, i4, i5⟩ := x.follows ha (l.of_step x.exec hs)
  obtain ⟨a, ids, _, hi⟩ := x.exec.inv
  obtain ⟨L, hL⟩ := (hi.step_grows hs).2
  obtain ⟨_, _, _, _, ht⟩ := Exec.tracked (.call e x.exec he hs) l.vars
  obtain ⟨V, hV, _⟩ := ht.view
  have hV := hV.full l.fine
  have hdrop : s'.log.drop s.log.length = L := by rw [← hL]; simp
  rw [← hL] at hV
  have hnet : f = some .varisat → ∀ M, M <+: s.log ++ L → netClauses M ≤ 2 ^ 32 := by rw [hL]; exact l.net
  unfold St.joint at hj
  rw [hs] at hj
  simp only at hj
  rw [hdrop, if_neg (by simp [i1])] at hj
  have hF1 : Out.Follows env f check s0.log s.log { o with invoked := true } :=
    ⟨i4.err, i4.chk, i4.cnt, i4.file, i4.raw, (fun h => by cases h), i4.keep, i4.bits.congr rfl rfl rfl rfl rfl (fun h => by cases h), i4.why⟩
  rcases Out.feed_follows ha L hF1 hV hnet with ⟨e1, f1, st, j1, j2⟩ | ⟨o1, e1, f1, j1, v1⟩
  · rw [e1] at hj; cases hj
  rw [e1] at hj
  simp only at hj
  obtain ⟨o2, e2, f2, -⟩ := Out.solveFinished_follows ha f1
  rw [e2] at hj
  simp only at hj
  have hk := Except.ok.inj hj
  simp only [Prod.mk.injEq] at hk
  obtain ⟨-, rfl, -, hk⟩ := hk
  unfold Out.takeError at hk ⊢
  split at hk
  · rename_i z hz
    obtain ⟨k1, k2⟩ := f2.err (by rw [hz]; rfl)
    exact ⟨rfl, k1, k2⟩
  · cases hk

end Varisat.Solver

namespace Varisat.Out

variable {env : Env} {f : Option Format} {check : Bool} {P log : List ProofStep} {o : Sess}

/-- `close_proof` does not panic. -/
theorem close_any (h : Follows env f check P log o) (hnet : f = some .varisat → netClauses log ≤ 2 ^ 32) : ∃ o' r, close env o = some (o', r) := by
  obtain ⟨o2, ha⟩ : ∃ o2, addStep env o .end_ = some o2 := by
    unfold addStep
    split
    · exact ⟨_, rfl⟩
    · rename_i he
      have he : o.error = none := by simpa using he
      obtain ⟨hf, -⟩ := h.keep he
      rcases writeOut_full (env := env) (st := .end_) h.bits (fun hf' => by
        rw [h.cnt hf']; simpa [delta] using hnet (hf.symm.trans hf')) with ⟨-, -, q⟩ | ⟨o1, ok, e1, -, -, e4, -⟩
      · cases q
      · rw [e1]
        cases ok with
        | false => exact ⟨_, rfl⟩
        | true =>
          simp only
          unfold tell
          split
          · exact ⟨_, rfl⟩
          · exact ⟨_, rfl⟩
  unfold close closeOutput
  rw [ha]
  simp only
  split <;> exact ⟨_, _, rfl⟩

/-- After an error there is nothing to close. -/
theorem close_dead (h1 : o.error = none) (h2 : o.proof.checker = none) (h3 : o.proof.format = none) : ∃ o', close env o = some (o', .unit) := by
  have ha : addStep env o .end_ = some o := by
    unfold addStep writeOut tell
    rw [if_neg (by simp [h1]), h3]
    simp only [h2]
  unfold close closeOutput
  rw [ha]
  simp only [flush, h3, Option.isSome_none, Bool.false_eq_true, if_false, takeError, h1]
  exact ⟨_, rfl⟩

/-- A DRAT file after `close_proof`, also if that failed. -/
theorem close_written {env : Env} {o o' : Sess} {g : Format} {r : Ret} (hg : g ≠ .varisat) (hf : o.proof.format = some g) (he : o.error = none)
    (hc : close env o = some (o', r)) :
    ∃ x, o'.files = o.files ++ [x] ∧ x.format = g ∧ (x.written = o.proof.written ∨ x.written = o.proof.written ++ [.end_]) := by
  have hw : writeOut env o .end_ = some (putStep env o .end_ .end_) := by
    unfold writeOut
    rw [hf]
    cases g with
    | varisat => exact absurd rfl hg
    | drat => rfl
    | binaryDrat => rfl
  unfold close at hc
  cases hco : closeOutput env o with
  | none => rw [hco] at hc; cases hc
  | some s =>
    rw [hco] at hc
    have h1 : o'.files = s.files := by
      simp only [takeError] at hc
      cases hs : s.error <;> (rw [hs] at hc; cases hc; rfl)
    rw [h1]
    clear hc h1
    unfold closeOutput addStep at hco
    rw [if_neg (by simp [he]), hw] at hco
    unfold putStep put at hco
    cases hio : env.io o.ios with
    | false =>
      simp only [hio, Bool.false_eq_true, if_false, handleIo, Sess.drop, Proof.file, hf, flush, Option.isSome_none] at hco
      cases hco
      exact ⟨_, List.append_nil _, rfl, .inl rfl⟩
    | true =>
      simp only [hio, if_true, tell] at hco
      cases hcc : o.proof.checker with
      | none =>
        simp only [hcc, flush, hf, Option.isSome_some, if_true, handleIo] at hco
        cases hio' : env.io (o.ios + 1) <;>
          (simp only [hio', Bool.false_eq_true, if_false, if_true, Sess.drop, Proof.file] at hco; cases hco)
        · exact ⟨_, List.append_nil _, rfl, .inr rfl⟩
        · exact ⟨_, rfl, rfl, .inr rfl⟩
      | some c =>
        simp only [hcc] at hco
        have hh : ∀ t : Sess, handleCheck t (Checker.selfCheckStep env.chk .end_ c) =
            some { t with proof := { t.proof with checker := some { c with step := c.step + 1, ended := true } } } := fun t => rfl
        rw [hh] at hco
        simp only [flush, hf, Option.isSome_some, if_true, handleIo] at hco
        cases hio' : env.io (o.ios + 1) <;>
          (simp only [hio', Bool.false_eq_true, if_false, if_true, Sess.drop, Proof.file] at hco; cases hco)
        · exact ⟨_, List.append_nil _, rfl, .inr rfl⟩
        · exact ⟨_, rfl, rfl, .inr rfl⟩
end Varisat.Out

namespace Varisat.Cli
open Solver Api
open Checker (Accepting)

variable {α : Type} [LinearOrder α] {e : Solver.Env α} {penv : Out.Env}

theorem load_oneFile {f : Option Out.Format} : ∀ (cs : List (List Lit)) {q q' : St α × Out.Sess}, Out.OneFile f q.2 → loadJoint e penv cs q = .ok q' → Out.OneFile f q'.2 := by
  intro cs
  induction cs with
  | nil => intro q q' h hk; cases hk; exact h
  | cons c cs ih =>
    intro q q' h hk
    unfold loadJoint at hk
    rw [List.foldlM_cons] at hk
    cases hj : q.1.joint e penv (.addClause c) q.2 with
    | error z => rw [hj] at hk; cases hk
    | ok z =>
      obtain ⟨t, u, v, w⟩ := z
      rw [hj] at hk
      exact ih (q := (t, u)) (joint_oneFile h hj) hk

/-- Adding clauses, one call of `solve`, `close_proof`, whichever writes fail. -/
theorem session_accepting (ha : Accepting penv.chk) (he : e.Ok) (f : Option Out.Format) (check : Bool)
    {cs : List (List Lit)} (hv : ∀ c ∈ cs, ∀ l ∈ c, l.var < 2 ^ 28) (hnet : f = some .varisat → NetFits e cs) :
    ∃ (N : Nat) (s : St α) (o : Out.Sess) (s' : St α) (o' : Out.Sess) (r : Nat) (er : Option Out.SErr) (o'' : Out.Sess) (ret : Out.Ret),
      loadJoint e penv cs (St.new e, setup f check) = .ok (s, o) ∧ Exec s (cs.map fun c => (.addClause c, [])) ∧
      (∀ n, N ≤ n → s.joint e penv (.solve n) o = .ok (s', o', [r], er)) ∧
      (er = none → Joint penv f check s' o' ((cs.map fun c => (.addClause c, [])) ++ [(.solve, [r])])) ∧ (er.isSome → ∃ n, penv.io n = false) ∧
      C51.Small f s' ∧ Out.close penv o' = some (o'', ret) ∧ Out.OneFile f o'' ∧ o''.proof.format = none ∧ o'.error = none ∧ Reached e cs s' ∧
      (r = 0 ∨ r = 1) ∧ (r = 0 ↔ Unsat cs) ∧ Exec s' ((cs.map fun c => (.addClause c, [])) ++ [(.solve, [r])]) := by
  obtain ⟨s, h1, x⟩ := load_total he cs (pre := []) (Exec.new e)
  rw [List.nil_append] at x
  obtain ⟨N, s', r, k1, k2, k3⟩ := C54.decides x (plain_clauses cs) he
  rw [added_clauses, assumed_clauses] at k3
  have x' : Exec s' ((cs.map fun c => (.addClause c, [])) ++ [(.solve, r)]) := .call (op := .solve N) e x he (k1 N (Nat.le_refl _))
  have hasm' : NoAsm ((cs.map fun c => (.addClause c, [])) ++ [(.solve, r)]) := (C59.oneShot (.inr ⟨r, rfl⟩)).noAsm
  obtain ⟨b, q1, rfl⟩ := solve_step (k1 N (Nat.le_refl _))
  have hsm : C51.Small f s' := by
    refine ⟨?_, fun hf => hnet hf s' ⟨N, s, b, h1, q1⟩⟩
    have := C59.small x (fun c hc l hl => Nat.lt_trans (hv c hc l hl) (by decide))
    obtain ⟨a, ids, hr, hi⟩ := x.inv
    rw [hi.solve_slen q1]
    exact this
  have l' : Limits f s' := ⟨hsm.1, hsm.2, x'.fine_of_noAsm hasm'⟩
  obtain ⟨o, h2, j⟩ := load_joint (check := check) ha he cs h1 (l'.of_step x (k1 N (Nat.le_refl _)))
  obtain ⟨o1, er, j1, j2⟩ := C51.self_check_partial ha j he (k1 N (Nat.le_refl _)) hsm (C59.noSingle x' hasm') (fun _ => C59.oneShot (.inr ⟨_, rfl⟩))
  have hsame : ∀ n, N ≤ n → s.joint e penv (.solve n) o = s.joint e penv (.solve N) o := by
    intro n hn
    unfold St.joint
    rw [k1 n hn, k1 N (Nat.le_refl _)]
  have hone : Out.OneFile f o1 := by
    exact joint_oneFile (load_oneFile cs setup_oneFile h2) j1
  have her : (er = none → Joint penv f check s' o1 ((cs.map fun c => (.addClause c, [])) ++ [(.solve, [if b then 1 else 0])])) ∧ o1.error = none ∧
      ∃ o2 ret, Out.close penv o1 = some (o2, ret) := by
    cases er with
    | none =>
      have xj : Joint penv f check s' o1 ((cs.map fun c => (.addClause c, [])) ++ [(.solve, [if b then 1 else 0])]) := .call (op := .solve N) e j he j1
      obtain ⟨-, -, s0, -, hF, -⟩ := xj.follows ha l'
      refine ⟨fun _ => xj, ?_, Out.close_any hF (fun hf => l'.net hf _ (List.prefix_refl _))⟩
      have j1 := j1
      unfold St.joint at j1
      rw [k1 N (Nat.le_refl _)] at j1
      simp only at j1
      split at j1
      · cases j1
      · split at j1
        · cases j1
        · split at j1
          · cases j1
          · rename_i u hu
            have hk := Except.ok.inj j1
            simp only [Prod.mk.injEq] at hk
            obtain ⟨-, rfl, -, hk⟩ := hk
            unfold Out.takeError at hk ⊢
            split
            · rfl
            · rename_i hn; exact hn
    | some y =>
      obtain ⟨d1, d2, d3⟩ := joint_dead ha j he j1 l'
      obtain ⟨o2, hc⟩ := Out.close_dead (env := penv) d1 d2 d3
      exact ⟨(fun h => by cases h), d1, o2, .unit, hc⟩
  obtain ⟨e1, e2, o2, ret, hc⟩ := her
  obtain ⟨c1, c2⟩ := hone.close hc
  refine ⟨N, s, o, s', o1, if b then 1 else 0, er, o2, ret, h2, x, fun n hn => by rw [hsame n hn, j1], e1, ?_, hsm, hc, c1, c2, e2, ⟨N, s, b, h1, q1⟩, by simpa using k2, ?_, x'⟩
  · intro hs
    rcases j2 with rfl | ⟨-, h⟩
    · cases hs
    · exact h
  cases b with
  | false =>
    simp only [Bool.false_eq_true, if_false, true_iff]
    intro τ hτ
    exact absurd (k3.2 ⟨τ, hτ, fun l hl => by cases hl⟩) (by simp)
  | true =>
    obtain ⟨τ, hτ, -⟩ := k3.1 rfl
    exact ⟨(fun h => by cases h), fun hu => absurd hτ (hu τ)⟩

/-- Adding clauses with processors that may fail. -/
theorem load_near : ∀ (cs : List (List Lit)) (q : St α × Out.Sess), q.2.invalid = false → q.2.error ≠ some .interrupted →
    ∀ {t : St α}, cs.foldlM (fun s c => s.loadClause e c) q.1 = .ok t →
    loadJoint e penv cs q = loadJoint e penv.lenient cs q ∨
      (∃ o', loadJoint e penv cs q = .ok (t, o') ∧ Out.Dead o' ∧ o'.invalid = false) ∧ penv.chk.Fails := by
  have dead : ∀ (cs : List (List Lit)) (s : St α) (o : Out.Sess), Out.Dead o → o.invalid = false →
      ∀ {t : St α}, cs.foldlM (fun s c => s.loadClause e c) s = .ok t →
      ∃ o', loadJoint e penv cs (s, o) = .ok (t, o') ∧ Out.Dead o' ∧ o'.invalid = false := by
    intro cs
    induction cs with
    | nil => intro s o hd hv t h; cases h; exact ⟨o, rfl, hd, hv⟩
    | cons c cs ih =>
      intro s o hd hv t h
      rw [List.foldlM_cons] at h
      cases hl : s.loadClause e c with
      | error x => rw [hl] at h; cases h
      | ok s1 =>
        rw [hl] at h
        have hstep : s.step e (.addClause c) = .ok (s1, []) := by
          show (s.loadClause e c >>= fun q => pure (q, [])) = _
          rw [hl]; rfl
        obtain ⟨o1, er, k1, rfl, k2⟩ := joint_gone (env := penv) hd hv hstep
        have hh := joint_held (by rw [hd.err]; simp) k1
        obtain ⟨o2, m1, m2⟩ := ih s1 o1 k2 (hh.invalid.trans hv) h
        refine ⟨o2, ?_, m2⟩
        unfold loadJoint at m1 ⊢
        rw [List.foldlM_cons, k1]
        exact m1
  intro cs
  induction cs with
  | nil => intro q _ _ t _; exact .inl rfl
  | cons c cs ih =>
    intro q hv hi t h
    rw [List.foldlM_cons] at h
    cases hl : q.1.loadClause e c with
    | error x => rw [hl] at h; cases h
    | ok s1 =>
      rw [hl] at h
      have hstep : q.1.step e (.addClause c) = .ok (s1, []) := by
        show (q.1.loadClause e c >>= fun q => pure (q, [])) = _
        rw [hl]; rfl
      have un : ∀ env' : Out.Env, loadJoint e env' (c :: cs) q = match q.1.joint e env' (.addClause c) q.2 with
          | .error x => .error x
          | .ok (s, o, _, _) => loadJoint e env' cs (s, o) := by
        intro env'
        unfold loadJoint
        rw [List.foldlM_cons]
        cases q.1.joint e env' (.addClause c) q.2 <;> rfl
      rcases joint_near (e := e) (env := penv) q.1 q.2 (.addClause c) with k | ⟨⟨s2, r2, o1, er, k1, k2, rfl, k3⟩, hf⟩
      · rw [un, un, k]
        cases hj : q.1.joint e penv.lenient (.addClause c) q.2 with
        | error x => exact .inl rfl
        | ok z =>
          obtain ⟨s2, o2, r2, er⟩ := z
          have hs2 := St.step_of_joint hj
          rw [hstep] at hs2
          cases hs2
          obtain rfl : er = none := by
            have hj := hj
            unfold St.joint at hj
            rw [hstep] at hj
            simp only at hj
            split at hj
            · cases hj
            · have hj := Except.ok.inj hj
              simp only [Prod.mk.injEq] at hj
              exact hj.2.2.2.symm
          have hh := joint_held hi hj
          exact ih (s1, o2) (hh.invalid.trans hv) hh.err h
      · rw [hstep] at k1
        cases k1
        have hh := joint_held hi k2
        rw [un penv, k2]
        exact .inr ⟨dead cs s1 o1 k3 (hh.invalid.trans hv) h, hf⟩

/-- Adding clauses, one call of `solve`, `close_proof`, whichever writes and processors fail. -/
theorem session_any (he : e.Ok) (f : Option Out.Format) (check : Bool)
    {cs : List (List Lit)} (hv : ∀ c ∈ cs, ∀ l ∈ c, l.var < 2 ^ 28) (hnet : f = some .varisat → NetFits e cs) :
    ∃ (N : Nat) (s : St α) (o : Out.Sess) (s' : St α) (o' : Out.Sess) (r : Nat) (er : Option Out.SErr) (o'' : Out.Sess) (ret : Out.Ret),
      loadJoint e penv cs (St.new e, setup f check) = .ok (s, o) ∧ Exec s (cs.map fun c => (.addClause c, [])) ∧
      (∀ n, N ≤ n → s.joint e penv (.solve n) o = .ok (s', o', [r], er)) ∧
      (er = none → Joint penv.lenient f check s' o' ((cs.map fun c => (.addClause c, [])) ++ [(.solve, [r])])) ∧
      (er.isSome → (∃ n, penv.io n = false) ∨ penv.chk.Fails) ∧
      C51.Small f s' ∧ Out.close penv o' = some (o'', ret) ∧ Out.OneFile f o'' ∧ o''.proof.format = none ∧ o'.error = none ∧ Reached e cs s' ∧
      (r = 0 ∨ r = 1) ∧ (r = 0 ↔ Unsat cs) ∧ Exec s' ((cs.map fun c => (.addClause c, [])) ++ [(.solve, [r])]) := by
  obtain ⟨N, s, o, s', o', r, er, o'', ret, k1, k2, k3, k4, k5, k6, k7, k8, k9, k10, k11⟩ :=
    session_accepting (penv := penv.lenient) penv.chk.lenient_accepting he f check hv hnet
  have hstep : ∀ n, N ≤ n → s.step e (.solve n) = .ok (s', [r]) := fun n hn => St.step_of_joint (k3 n hn)
  have gone : ∀ (o : Out.Sess) (hl : loadJoint e penv cs (St.new e, setup f check) = .ok (s, o)) {o1 : Out.Sess} {er1 : Option Out.SErr},
      s.joint e penv (.solve N) o = .ok (s', o1, [r], er1) → Gone (.solve N) o1 er1 →
      er1 = some .processor ∧ o1.error = none ∧ ∃ o2, Out.close penv o1 = some (o2, .unit) ∧ Out.OneFile f o2 ∧ o2.proof.format = none ∧
        ∀ n, N ≤ n → s.joint e penv (.solve n) o = .ok (s', o1, [r], er1) := by
    intro o hl o1 er1 h1 h2
    obtain ⟨rfl, g1, g2, g3, -⟩ := h2
    have hone : Out.OneFile f o1 := joint_oneFile (load_oneFile cs setup_oneFile hl) h1
    obtain ⟨o2, hc⟩ := Out.close_dead (env := penv) g1 g2 g3
    obtain ⟨c1, c2⟩ := hone.close hc
    refine ⟨rfl, g1, o2, hc, c1, c2, fun n hn => ?_⟩
    rw [← h1]
    unfold St.joint
    rw [hstep n hn, hstep N (Nat.le_refl _)]
  rcases load_near (e := e) (penv := penv) cs (St.new e, setup f check) rfl (by simp [setup]) (loadJoint_ok k1) with h | ⟨⟨o1, h1, h2, h3⟩, hf⟩
  · have hl := h.trans k1
    rcases joint_near (e := e) (env := penv) s o (.solve N) with q | ⟨⟨s1, r1, o1, er1, q1, q2, q3⟩, hf⟩
    · refine ⟨N, s, o, s', o', r, er, o'', ret, hl, k2, fun n hn => ?_, k4, fun h => .inl (k5 h), k6, k7, k8, k9, k10, k11⟩
      rw [← k3 N (Nat.le_refl _), ← q]
      unfold St.joint
      rw [hstep n hn, hstep N (Nat.le_refl _)]
    · rw [hstep N (Nat.le_refl _)] at q1
      cases q1
      obtain ⟨rfl, g1, o2, g2, g3, g4, g5⟩ := gone o hl q2 q3
      exact ⟨N, s, o, s', o1, r, some .processor, o2, .unit, hl, k2, g5, (fun h => by cases h), fun _ => .inr hf, k6, g2, g3, g4, g1, k11⟩
  · obtain ⟨o2, er, q2, q3⟩ := joint_gone (env := penv) h2 h3 (hstep N (Nat.le_refl _))
    obtain ⟨rfl, g1, o3, g2, g3, g4, g5⟩ := gone o1 h1 q2 q3
    exact ⟨N, s, o1, s', o2, r, some .processor, o3, .unit, h1, k2, g5, (fun h => by cases h), fun _ => .inr hf, k6, g2, g3, g4, g1, k11⟩

theorem solveFile_any (he : e.Ok) (log : Log) {args : FileArgs} {i : Source} {f : CnfFormula}
    {cs : List (List Lit)} (hi : i.fails = false) (hp : ∀ p, args.proof = some p → p.2 = true) (hf : DimacsParser.parse [i.chunks.flatten] = .ok f)
    (hcs : f.iter = some cs) (hnet : args.format = some .varisat → NetFits e cs) (out : Bytes) :
    ∃ (N : Nat) (out' : Bytes) (code : Nat) (s' : St α) (o' o'' : Out.Sess) (r : Nat) (er : Option Out.SErr) (ret : Out.Ret),
      (∀ n, N ≤ n → solveFile e penv n log args i out = finish penv (args.proof.map (·.1)) out' code o' ∧
        solveInput e n log (args.plain er.isSome) i out = some (out', code)) ∧
      (er = none → Joint penv.lenient args.format args.checks s' o' ((cs.map fun c => (.addClause c, [])) ++ [(.solve, [r])])) ∧
      (er.isSome → (∃ n, penv.io n = false) ∨ penv.chk.Fails) ∧ C51.Small args.format s' ∧ Out.close penv o' = some (o'', ret) ∧ Out.OneFile args.format o'' ∧
      o''.proof.format = none ∧ o'.error = none ∧ Reached e cs s' ∧ (if er.isSome then code = 0 else r = 0 ∧ code = 20 ∨ r = 1 ∧ code = 10) ∧ (r = 0 ↔ Unsat cs) ∧
      Out.Heard penv o' := by
  obtain ⟨p, fs, css, a1, a2, a3⟩ := parts hf hcs
  obtain ⟨N, s, o, s', o', r, er, o'', ret, k1, k2, k3, k4, k5, k6, k7, k8, k9, k10, k11, k12, k13, k14⟩ :=
    session_any (f := args.format) (check := args.checks) he (DimacsParser.parse_range hf hcs) hnet
  have k15 : Out.Heard penv o' := joint_heard (load_heard cs (q := (St.new e, setup args.format args.checks)) setup_heard k1) (k3 N (Nat.le_refl _))
  obtain ⟨b1, b2⟩ : (addFormulasJoint e penv fs (St.new e, args.sess) = .ok (s, o)) ∧ addFormulas e (St.new e) fs = .ok s := by
    rw [addFormulas_flat a2, addFormulasJoint_flat a2, a3, FileArgs.sess_eq]
    exact ⟨k1, loadJoint_ok k1⟩
  obtain ⟨a, code, c1, c2⟩ : ∃ a code, (∀ n, N ≤ n → answerJoint e penv n log s o = some (a, code, o') ∧ answer e n log er.isSome s = some (a, code)) ∧
      (if er.isSome then code = 0 else r = 0 ∧ code = 20 ∨ r = 1 ∧ code = 10) := by
    have hs : ∀ n, N ≤ n → ∃ b : Bool, s.solve e n = .ok (s', b) ∧ [r] = [if b then 1 else 0] := fun n hn => solve_step (St.step_of_joint (k3 n hn))
    cases er with
    | some y =>
      refine ⟨logLine log.error ++ ascii "s UNKNOWN" ++ [10], 0, fun n hn => ⟨?_, rfl⟩, rfl⟩
      unfold answerJoint
      rw [k3 n hn]
    | none =>
      rcases k12 with rfl | rfl
      · refine ⟨ascii "s UNSATISFIABLE" ++ [10], 20, fun n hn => ⟨?_, ?_⟩, .inl ⟨rfl, rfl⟩⟩
        · unfold answerJoint
          rw [k3 n hn]
          rfl
        · obtain ⟨b, q1, q2⟩ := hs n hn
          obtain rfl : b = false := by cases b <;> simp at q2 ⊢
          unfold answer
          rw [q1]
          rfl
      · obtain ⟨m, hm⟩ := C55.model_some_partial (h1 := cs.map fun c => (.addClause c, [])) (h2 := []) k14 (not_found_clauses cs)
          (fun y hy => by cases hy) (fun p y q h => by simp at h)
        refine ⟨ascii "s SATISFIABLE" ++ [10] ++ ascii "v" ++ m.flatMap (fun l => ascii " " ++ decInt l.toDimacs) ++
            ascii " 0" ++ [10], 10, fun n hn => ⟨?_, ?_⟩, .inr ⟨rfl, rfl⟩⟩
        · unfold answerJoint
          rw [k3 n hn]
          simp only [hm]
          rfl
        · obtain ⟨b, q1, q2⟩ := hs n hn
          obtain rfl : b = true := by cases b <;> simp at q2 ⊢
          unfold answer
          rw [q1]
          simp only [hm]
          rfl
  have go : ∀ out n, N ≤ n → (if i.fails then finish penv (args.proof.map (·.1)) (out ++ logLine log.error) 1 args.sess
      else
        match DimacsParser.parseIncremental .new (i.chunks.map (·, true)) true with
        | (_, fs, err) =>
          match addFormulasJoint e penv fs (Solver.St.new e, args.sess) with
          | .error _ => none
          | .ok (s, o) =>
            match err with
            | some _ => finish penv (args.proof.map (·.1)) (out ++ logLine log.error) 1 o
            | none =>
              match answerJoint e penv n log s o with
              | none => none
              | some (a, code, o) => finish penv (args.proof.map (·.1)) (out ++ log.solving.flatMap logLine ++ a) code o) =
        finish penv (args.proof.map (·.1)) (out ++ log.solving.flatMap logLine ++ a) code o' ∧
      (if i.fails then some (out ++ logLine log.error, 1)
      else
        match DimacsParser.parseIncremental .new (i.chunks.map (·, true)) true with
        | (_, fs, err) =>
          match addFormulas e (Solver.St.new e) fs with
          | .error _ => none
          | .ok s =>
            match err with
            | some _ => some (out ++ logLine log.error, 1)
            | none =>
              match answer e n log er.isSome s with
              | none => none
              | some (a, code) => some (out ++ log.solving.flatMap logLine ++ a, code)) =
        some (out ++ log.solving.flatMap logLine ++ a, code) := by
    intro out n hn
    simp only [hi, Bool.false_eq_true, if_false, a1, b1, b2, (c1 n hn).1, (c1 n hn).2]
    exact ⟨trivial, trivial⟩
  unfold solveFile solveInput
  simp only
  cases hpr : args.proof with
  | none =>
    rw [hpr] at go
    exact ⟨N, out ++ log.solving.flatMap logLine ++ a, code, s', o', o'', r, er, ret, fun n hn => ⟨(go out n hn).1, by simp only [FileArgs.plain, hpr, Option.map_none]; exact (go out n hn).2⟩,
      k4, k5, k6, k7, k8, k9, k10, k11, c2, k13, k15⟩
  | some pr =>
    obtain ⟨kind, creates⟩ := pr
    obtain rfl : creates = true := hp _ hpr
    rw [hpr] at go
    refine ⟨N, out ++ logLine log.proof ++ log.solving.flatMap logLine ++ a, code, s', o', o'', r, er, ret, fun n hn => ⟨?_, ?_⟩, k4, k5, k6, k7, k8, k9, k10, k11, c2, k13, k15⟩
    · cases kind <;> exact (go (out ++ logLine log.proof) n hn).1
    · cases kind <;> (simp only [FileArgs.plain, hpr, Option.map_some, if_true, Bool.false_eq_true, if_false]; exact (go _ n hn).2)

end Varisat.Cli
