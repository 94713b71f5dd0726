import Verif.Model.Interleave
import Verif.Proof.ProofOut
import Verif.Proof.Solver.Term
import Verif.Proof.Solver.TermFirst
import Verif.Proof.Solver.SolveLog
import Verif.Proof.Solver.Plain
import Verif.Proof.Solver.JointRun
/-!
# Proofs about `solve` with errors of the proof output
-/
namespace Varisat.Out

variable {env : Env}

/-- No proof is written or checked. -/
def Blank (o : Sess) : Prop := o.proof.format = none ∧ o.proof.checker = none

theorem Blank.addStep {o : Sess} (h : Blank o) (st : ProofStep) : addStep env o st = some o := by
  unfold Out.addStep writeOut tell
  split
  · rfl
  · simp only [h.1, h.2]

theorem Blank.exec {o : Sess} (h : Blank o) (ev : Ev) : ∃ o', ev.exec env o = some o' ∧ Blank o' ∧ o'.error = o.error ∧ o'.invalid = o.invalid := by
  cases ev with
  | step st => exact ⟨_, h.addStep st, h, rfl, rfl⟩
  | clause c =>
    unfold Ev.exec Out.addClause
    simp only
    split
    · exact ⟨_, h.addStep _, h, rfl, rfl⟩
    · unfold tell
      rw [h.2]
      refine ⟨_, rfl, ?_⟩
      split
      · exact ⟨h, rfl, rfl⟩
      · exact ⟨h, rfl, rfl⟩
  | sat v => exact ⟨_, rfl, h, rfl, rfl⟩
  | nonEmpty => exact ⟨_, rfl, h, rfl, rfl⟩

theorem Blank.runEvs : ∀ (L : List Ev) {o : Sess}, Blank o → ∃ o', runEvs env L o = some o' ∧ Blank o' ∧ o'.error = o.error ∧ o'.invalid = o.invalid
  | [], o, h => ⟨o, rfl, h, rfl, rfl⟩
  | ev :: L, o, h => by
    obtain ⟨o1, e1, h1, h2, h3⟩ := h.exec (env := env) ev
    obtain ⟨o2, e2, k1, k2, k3⟩ := Blank.runEvs L h1
    exact ⟨o2, by unfold Out.runEvs; rw [e1]; exact e2, k1, k2.trans h2, k3.trans h3⟩

theorem Blank.solveFinished {o : Sess} (h : Blank o) : solveFinished env o = some o := by
  unfold Out.solveFinished flush tell
  simp only [h.1, Option.isSome_none, Bool.false_eq_true, if_false, h.2]

/-- Errors are stored, and after an error there is no proof output. -/
structure Settled (env : Env) (o : Sess) : Prop where
  kind : Kind env o
  blank : o.invalid = true → Blank o

theorem Settled.of_error {o : Sess} (h : Settled env o) (he : o.error.isSome ∨ o.invalid = true) : Blank o :=
  he.elim (h.kind.dead ·) h.blank

theorem Settled.runEvs {L : List Ev} {o o' : Sess} (h : Settled env o) (hr : runEvs env L o = some o') : Settled env o' := by
  refine ⟨runEvs_kind hr h.kind, fun hi => ?_⟩
  rw [(runEvs_held h.kind.err hr).invalid] at hi
  obtain ⟨o1, e1, h1, -⟩ := (h.blank hi).runEvs (env := env) L
  rw [hr] at e1
  cases e1
  exact h1

theorem Settled.invoke {o : Sess} (h : Settled env o) : Settled env { o with invoked := true } :=
  ⟨⟨h.kind.noted.congr rfl rfl rfl rfl, h.kind.err, h.kind.dead, h.kind.io, h.kind.proc⟩, h.blank⟩

theorem Settled.solveFinished {o o' : Sess} (h : Settled env o) (hr : solveFinished env o = some o') : Settled env o' := by
  refine ⟨tell_kind hr (flush_kind h.kind), fun hi => ?_⟩
  rw [(solveFinished_held h.kind.err hr).invalid] at hi
  rw [(h.blank hi).solveFinished] at hr
  cases hr
  exact h.blank hi

theorem Settled.takeError {o : Sess} (h : Settled env o) : Settled env (takeError o).1 := by
  refine ⟨.of_none (takeError_noted h.kind.noted h.kind.err) (takeError_err _), fun hi => ?_⟩
  have : Blank o := by
    refine h.of_error ?_
    unfold Out.takeError at hi
    split at hi
    · rename_i er he
      exact .inl (by rw [he]; rfl)
    · exact .inr hi
  unfold Blank
  rw [(takeError_same o).1]
  exact this

theorem Settled.close {o o' : Sess} {r : Ret} (h : Settled env o) (hc : close env o = some (o', r)) : Settled env o' := by
  obtain ⟨o1, h1, rfl, -⟩ := close_elim hc
  refine Settled.takeError (o := o1) ?_
  have hN := closeOutput_noted h1 h.kind.noted
  have hH := closeOutput_held h.kind.err h1
  unfold closeOutput at h1
  split at h1
  · cases h1
  · rename_i o2 h2
    cases h1
    have k2 : Kind env o2 := addStep_kind h2 h.kind
    have k3 : Kind env (flush env o2) := flush_kind k2
    refine ⟨⟨hN, hH.err, fun he => ⟨rfl, (k3.dead he).2⟩, fun he hi => k3.io he hi, fun he hi => k3.proc he hi⟩, fun hi => ⟨rfl, ?_⟩⟩
    have hi : o.invalid = true := by rw [← hH.invalid]; exact hi
    have hb := h.blank hi
    rw [hb.addStep] at h2
    cases h2
    show (flush env o).proof.checker = none
    unfold flush
    rw [hb.1]
    exact hb.2

theorem Settled.setup (f : Option Format) (check : Bool) : Settled env (Solver.setup f check) := by
  refine ⟨.of_none ?_ rfl, nofun⟩
  rintro (⟨n, h, -⟩ | h)
  · exact absurd h (Nat.not_lt_zero n)
  · exact absurd h (Nat.not_lt_zero 0)

end Varisat.Out

namespace Varisat.Solver
open Api
open Out (Sess Blank Settled)

variable {α : Type} [LinearOrder α] {env : Out.Env} {ids : Nat → Nat} {F : List (List Lit)} {A : List Lit} {e : Env α}

theorem feed_append (L M : List ProofStep) (o : Sess) : feed env (L ++ M) o = (feed env L o).bind (feed env M) := by
  unfold feed
  induction L generalizing o with
  | nil => rfl
  | cons st L ih =>
    simp only [List.cons_append, List.map_cons, Out.runEvs]
    cases (toEv st).exec env o with
    | none => rfl
    | some o1 => exact ih o1

/-- After an error the steps of a search are ignored. -/
theorem feed_error {o : Sess} (he : o.error.isSome) (hi : o.invoked = true) : ∀ L : List ProofStep, feed env L o = some o
  | [] => rfl
  | st :: L => by
    have hs : ∀ st, Out.addStep env o st = some o := fun st => by unfold Out.addStep; rw [if_pos he]
    have h1 : (toEv st).exec env o = some o := by
      have hc : ∀ c, Out.addClause env o c = some o := fun c => by unfold Out.addClause; rw [if_pos hi]; exact hs _
      cases st with
      | addClause c => exact hc c
      | _ => exact hs _
    show Out.runEvs env (toEv st :: L.map toEv) o = some o
    unfold Out.runEvs
    rw [h1]
    exact feed_error he hi L

theorem Answer.log {s s' : St α} (h : St.Answer s s') : ∃ L, s'.log = s.log ++ L := by
  unfold St.Answer at h
  split at h
  · obtain ⟨L, y, h, -⟩ := h; exact ⟨L ++ [y], by rw [h, List.append_assoc]⟩
  · obtain ⟨L, y, h, -⟩ := h; exact ⟨L ++ [y], by rw [h, List.append_assoc]⟩
  · obtain ⟨L, h, -⟩ := h; exact ⟨L, h⟩

theorem St.scheduleStep_more {s t : St α} {b : Bool} (h : s.scheduleStep e = .ok (t, b)) (hu : s.sat = .unknown) : b = true := by
  unfold scheduleStep at h
  rw [if_neg (by rw [hu]; simp)] at h
  have go : ∀ {u t : St α} {b : Bool}, u.searchStep e = .ok (t, b) → b = true := by
    intro u t b h
    unfold searchStep at h
    split at h
    · cases h
    · obtain ⟨_, _, h⟩ := bind_inv h
      cases h; rfl
  simp only at h
  split at h
  · obtain ⟨_, _, h⟩ := bind_inv h
    exact go h
  · exact go h

theorem St.solveLoop_log {n : Nat} {s s' : St α} (h : solveLoop e n s = .ok s') : ∃ L, s'.log = s.log ++ L := by
  obtain ⟨h1, h2, -⟩ := solveLoop_logs h
  by_cases hu : s.sat = .unknown
  · exact Answer.log (h2 hu)
  · exact ⟨[], by rw [h1 hu, List.append_nil]⟩

/-- A search whose steps are handed on at the end, and one whose steps are handed on in each round. -/
theorem St.rounds_of : ∀ {n : Nat} {s s' : St α} {o o' : Sess}, o.invoked = true → solveLoop e n s = .ok s' →
    feed env (s'.log.drop s.log.length) o = some o' → ∃ t, rounds e env n s o = .ok (t, o') ∧ (o'.error = none → t = s')
  | 0, _, _, _, _, _, h, _ => by cases h
  | n + 1, s, s', o, o', hi, h, hf => by
    rw [solveLoop] at h
    obtain ⟨⟨t, b⟩, h1, h⟩ := bind_inv h
    rw [rounds]
    by_cases hu : s.sat = .unknown
    · obtain rfl := scheduleStep_more h1 hu
      have h : solveLoop e n t = .ok s' := h
      by_cases he : o.error.isSome
      · rw [if_pos (.inr he)]
        rw [feed_error he hi] at hf
        cases hf
        exact ⟨s, rfl, fun q => by rw [q] at he; cases he⟩
      · rw [if_neg (by rintro (q | q); exact q hu; exact he q), h1]
        obtain ⟨L, hL⟩ := Answer.log (scheduleStep_logs h1 hu)
        obtain ⟨M, hM⟩ := solveLoop_log h
        rw [hM, hL, List.append_assoc, List.drop_left, feed_append] at hf
        simp only [hL, List.drop_left]
        cases hq : feed env L o with
        | none => rw [hq] at hf; cases hf
        | some o1 =>
          rw [hq] at hf
          refine rounds_of ((Out.runEvs_invoked hq).trans hi) h ?_
          rw [hM, List.drop_left]
          exact hf
    · have h1' : (Except.ok (s, false) : Except Stop (St α × Bool)) = .ok (t, b) := by
        rw [← h1]; unfold scheduleStep; rw [if_pos hu]
      cases h1'
      cases h
      rw [if_pos (.inl hu)]
      rw [List.drop_length] at hf
      cases hf
      exact ⟨s, rfl, fun _ => rfl⟩

/-- The other direction. -/
theorem After.rounds : ∀ {n : Nat} {s t : St α} {o o' : Sess}, After F A ids s → o.invoked = true → St.rounds e env n s o = .ok (t, o') →
    After F A ids t ∧ Keep s t ∧ (t.sat ≠ .unknown ∨ o'.error.isSome) ∧ o'.invoked = true ∧
    ∃ N s', St.solveLoop e N s = .ok s' ∧ feed env (s'.log.drop s.log.length) o = some o' ∧ (o'.error = none → t = s')
  | 0, _, _, _, _, _, _, h => by cases h
  | n + 1, s, t, o, o', ha, hi, h => by
    rw [St.rounds] at h
    split at h
    · rename_i hs
      cases h
      refine ⟨ha, ⟨VLess.refl _, rfl⟩, hs, hi, ?_⟩
      by_cases hu : s.sat = .unknown
      · have he : o.error.isSome := hs.resolve_left (fun q => q hu)
        obtain ⟨N, z, hz⟩ := ha.halts e
        exact ⟨N, z, hz, feed_error he hi _, fun q => by rw [q] at he; cases he⟩
      · refine ⟨1, s, ?_, by rw [List.drop_length]; rfl, fun _ => rfl⟩
        exact (St.solveLoop_known e hu 1).resolve_left (by
          rw [St.solveLoop]
          unfold St.scheduleStep
          rw [if_pos hu, ok_bind]
          exact nofun)
    · rename_i hs
      have hu : s.sat = .unknown := Classical.byContradiction fun q => hs (.inl q)
      obtain ⟨s1, b, e1, e2, e3, -⟩ := ha.scheduleStep e
      rw [e1] at h
      simp only at h
      obtain ⟨L, hL⟩ := Answer.log (St.scheduleStep_logs e1 hu)
      rw [hL, List.drop_left] at h
      cases hq : feed env L o with
      | none => rw [hq] at h; cases h
      | some o1 =>
        rw [hq] at h
        obtain ⟨k1, k2, k3, k4, N, s', k5, k6, k7⟩ := After.rounds e2 ((Out.runEvs_invoked hq).trans hi) h
        refine ⟨k1, e3.trans k2, k3, k4, N + 1, s', ?_, ?_, k7⟩
        · obtain rfl := St.scheduleStep_more e1 hu
          rw [St.solveLoop, e1, ok_bind]
          exact k5
        · obtain ⟨M, hM⟩ := St.solveLoop_log k5
          rw [hM, List.drop_left] at k6
          rw [hM, hL, List.append_assoc, List.drop_left, feed_append, hq]
          exact k6

theorem St.rounds_mono : ∀ {n m : Nat} {s : St α} {o : Sess}, n ≤ m → rounds e env n s o ≠ .error .fuel → rounds e env m s o = rounds e env n s o
  | 0, _, _, _, _, h => absurd rfl h
  | n + 1, 0, _, _, hm, _ => by omega
  | n + 1, m + 1, s, o, hm, h => by
    rw [rounds] at h ⊢
    rw [rounds]
    by_cases hs : s.sat ≠ .unknown ∨ o.error.isSome
    · rw [if_pos hs, if_pos hs]
    · rw [if_neg hs] at h ⊢
      rw [if_neg hs]
      cases h1 : s.scheduleStep e with
      | error x => rfl
      | ok q =>
        simp only [h1] at h ⊢
        cases h2 : feed env (q.1.log.drop s.log.length) o with
        | none => rfl
        | some o1 =>
          simp only [h2] at h ⊢
          exact rounds_mono (by omega) h

/-- The loop ends, at the latest when the search does. -/
theorem St.rounds_ends : ∀ {n : Nat} {s s' : St α} {o : Sess}, solveLoop e n s = .ok s' → rounds e env n s o ≠ .error .fuel
  | 0, _, _, _, h => by cases h
  | n + 1, s, s', o, h => by
    rw [solveLoop] at h
    obtain ⟨⟨t, b⟩, h1, h⟩ := bind_inv h
    rw [rounds]
    split
    · exact nofun
    · rename_i hs
      have hu : s.sat = .unknown := Classical.byContradiction fun q => hs (.inl q)
      obtain rfl := scheduleStep_more h1 hu
      rw [h1]
      simp only
      split
      · exact nofun
      · exact rounds_ends h

theorem Inv.invoke {a : Abs} {s : St α} (h : Inv a ids s) : Inv a ids { s with invoked := true } :=
  ⟨⟨h.b.v, h.b.q, h.b.fl, h.b.l0, h.b.inj, h.b.hidA, h.b.run, h.b.sat⟩, h.n, h.asm, h.as, h.unsat, h.under⟩

theorem Inv.searching {a : Abs} {s : St α} (h : Inv a ids s) (hs : s.sat = .unknown) : After a.clauses a.assumptions ids s := by
  have hne : s.sat ≠ .unsat := by rw [hs]; simp
  refine ⟨⟨h.b.v, h.b.q, h.b.fl, h.asm, h.b.l0⟩, fun _ => ⟨h.sinv hne, (h.b.run hne).2⟩, ?_, ?_, ?_⟩ <;> (intro k; rw [hs] at k; cases k)

theorem Inv.of_after {a : Abs} {s s' : St α} (h : Inv a ids s) (k2 : After a.clauses a.assumptions ids s') (k3 : Keep s s') : Inv a ids s' := by
  refine ⟨⟨k2.w.v, k2.w.q, k2.w.fl, k2.w.l0, ?_, ?_, fun hu => ⟨(k2.run hu).1.core, (k2.run hu).2⟩, fun hu => (k2.sat hu).1⟩,
    ⟨?_, ?_, ?_, h.n.occ, ?_⟩, k2.w.asm, fun hu => ⟨(k2.run hu).1.dec, (k2.run hu).1.as⟩, k2.unsat, k2.under⟩
  · intro g g' q1 q2; exact h.b.inj g g' (k3.vars.live g q1) (k3.vars.live g' q2)
  · intro g d' q1 q2
    obtain ⟨d, q3, q4, q5, _⟩ := k3.vars.data g d' q1
    rw [q5]; exact h.b.hidA g d q3 (by rw [← q4]; exact q2)
  · intro u; rw [k3.vars.gfu]; exact h.n.name u
  · rw [k3.vars.gfu]; exact h.n.len
  · intro g hg; exact h.n.lt g (k3.vars.live g hg)
  · obtain ⟨z1, z2, z3⟩ := h.n.sz
    exact ⟨by rw [k3.vars.gfu, k3.vars.len]; exact z1, by rw [k3.vars.slen, k3.vars.len]; exact z2, by rw [k3.vars.len]; exact z3⟩

/-- The loop of `solve`, from any state between two calls. -/
theorem Inv.rounds {a : Abs} {n : Nat} {s t : St α} {o o' : Sess} (h : Inv a ids s) (hi : o.invoked = true) (hr : St.rounds e env n s o = .ok (t, o')) :
    Inv a ids t ∧ (t.sat ≠ .unknown ∨ o'.error.isSome) ∧
    ∃ N s', St.solveLoop e N s = .ok s' ∧ feed env (s'.log.drop s.log.length) o = some o' ∧ (o'.error = none → t = s') := by
  by_cases hs : s.sat = .unknown
  · obtain ⟨k1, k2, k3, -, k4⟩ := (h.searching hs).rounds hi hr
    exact ⟨h.of_after k1 k2, k3, k4⟩
  · have hl : St.solveLoop e 1 s = .ok s := (St.solveLoop_known e hs 1).resolve_left (by
      rw [St.solveLoop]
      unfold St.scheduleStep
      rw [if_pos hs, ok_bind]
      exact nofun)
    cases n with
    | zero => cases hr
    | succ n =>
      rw [St.rounds, if_pos (.inl hs)] at hr
      cases hr
      exact ⟨h, .inl hs, 1, s, hl, by rw [List.drop_length]; rfl, fun _ => rfl⟩

theorem Inv.halts {a : Abs} {s : St α} (h : Inv a ids s) (e : Env α) : ∃ N z, St.solveLoop e N s = .ok z := by
  by_cases hs : s.sat = .unknown
  · exact (h.searching hs).halts e
  · exact ⟨1, s, (St.solveLoop_known e hs 1).resolve_left (by
      rw [St.solveLoop]
      unfold St.scheduleStep
      rw [if_pos hs, ok_bind]
      exact nofun)⟩

/-- What a call of `solve` that returns has done. -/
theorem St.solveI_elim {n : Nat} {s t : St α} {o o' : Sess} {x : Out.Ret} (h : s.solveI e env n o = .ok (t, o', x)) :
    o.invalid = false ∧ ∃ o1 o2, St.rounds e env n { s with invoked := true } { o with invoked := true } = .ok (t, o1) ∧
      Out.solveFinished env o1 = some o2 ∧ o' = (Out.takeError o2).1 ∧
      (∀ er, o2.error = some er → x = .err er) ∧
      (o2.error = none → x = match t.sat with
        | .unknown => .err .interrupted
        | .sat => .answer true
        | .unsat | .unsatUnder => .answer false) := by
  unfold solveI at h
  by_cases hi : o.invalid = true
  · rw [if_pos hi] at h; cases h
  · rw [if_neg hi] at h
    refine ⟨by simpa using hi, ?_⟩
    split at h
    · cases h
    · rename_i t1 o1 h1
      split at h
      · cases h
      · rename_i o2 h2
        refine ⟨o1, o2, ?_⟩
        unfold Out.takeError at h ⊢
        cases he : o2.error with
        | none =>
          simp only [he] at h
          cases h
          exact ⟨h1, h2, rfl, nofun, fun _ => rfl⟩
        | some er =>
          simp only [he] at h
          cases h
          exact ⟨h1, h2, rfl, fun _ q => by cases q; rfl, nofun⟩

theorem St.rounds_settled : ∀ {n : Nat} {s t : St α} {o o' : Sess}, Settled env o → St.rounds e env n s o = .ok (t, o') → Settled env o'
  | 0, _, _, _, _, _, h => by cases h
  | n + 1, s, t, o, o', hf, h => by
    rw [St.rounds] at h
    split at h
    · cases h; exact hf
    · split at h
      · cases h
      · split at h
        · cases h
        · rename_i h1
          exact rounds_settled (hf.runEvs h1) h

theorem St.rounds_invalid : ∀ {n : Nat} {s t : St α} {o o' : Sess}, Settled env o → St.rounds e env n s o = .ok (t, o') → o'.invalid = o.invalid
  | 0, _, _, _, _, _, h => by cases h
  | n + 1, s, t, o, o', hf, h => by
    rw [St.rounds] at h
    split at h
    · cases h; rfl
    · split at h
      · cases h
      · split at h
        · cases h
        · rename_i h1
          exact (rounds_invalid (hf.runEvs h1) h).trans (Out.runEvs_held hf.kind.err h1).invalid

theorem Life.settled {f : Option Out.Format} {check : Bool} {s : St α} {o : Sess} {h : Hist} (x : Life env f check s o h) : Settled env o := by
  induction x with
  | new e => exact .setup f check
  | @call s s' o o' h op r e x he hn hs ih =>
    unfold St.joint at hs
    split at hs
    · cases hs
    · split at hs
      · exact absurd rfl (hn _)
      · split at hs
        · cases hs
        · rename_i o1 h1
          cases hs
          exact ih.runEvs h1
  | solved e x he hs ih =>
    obtain ⟨-, o1, o2, h1, h2, rfl, -⟩ := St.solveI_elim hs
    exact ((St.rounds_settled ih.invoke h1).solveFinished h2).takeError
  | failed e x he hs ih =>
    obtain ⟨-, o1, o2, h1, h2, rfl, -⟩ := St.solveI_elim hs
    exact ((St.rounds_settled ih.invoke h1).solveFinished h2).takeError
  | close x hc ih => exact ih.close hc

/-- A call of `solve` on a state between two calls. -/
theorem Inv.solveI {a : Abs} {n : Nat} {s t : St α} {o o' : Sess} {x : Out.Ret} (h : Inv a ids s) (hf : Settled env o)
    (hs : s.solveI e env n o = .ok (t, o', x)) :
    Inv a ids t ∧ (∀ er, x = .err er → Blank o' ∧ o'.invalid = true ∧ er ≠ .interrupted) ∧
      (∀ b, x = .answer b → Abs.Step a .solve [if b then 1 else 0] a ∧ t.sat ≠ .unknown ∧ (b = true ↔ t.sat = .sat)) ∧
      ∃ N s' r er, (∀ m, N ≤ m → s.joint e env (.solve m) o = .ok (s', o', r, er)) ∧
        (er = none ∧ s' = t ∧ (∃ b, x = .answer b ∧ r = [if b then 1 else 0]) ∨ ∃ q, er = some q ∧ x = .err q) := by
  obtain ⟨hi, o1, o2, h1, h2, rfl, h3, h4⟩ := St.solveI_elim hs
  obtain ⟨k1, k2, N, s', k3, k4, k5⟩ := h.invoke.rounds rfl h1
  have hf1 := St.rounds_settled hf.invoke h1
  have hf2 := hf1.solveFinished h2
  have hft := hf2.takeError
  have hheld := Out.solveFinished_held hf1.kind.err h2
  have hj : ∀ m, N ≤ m → s.joint e env (.solve m) o = .ok (s', (Out.takeError o2).1, [if decide (s'.sat = SatState.sat) then 1 else 0], (Out.takeError o2).2) := by
    intro m hm
    unfold St.joint St.step St.solve
    simp only
    rw [St.solveLoop_mono e hm k3]
    simp only [bind, Except.bind, pure, Except.pure]
    rw [if_neg (by rw [hi]; decide)]
    have k4 : feed env (s'.log.drop s.log.length) { o with invoked := true } = some o1 := k4
    rw [k4]
    simp only
    rw [h2]
  refine ⟨k1, ?_, ?_, N, s', _, _, hj, ?_⟩
  · rintro er rfl
    cases he : o2.error with
    | none =>
      have h4 := h4 he
      exfalso
      have hu : t.sat ≠ .unknown := k2.resolve_right fun q => by
        have := hheld.some_ q
        rw [he] at this; cases this
      split at h4
      · rename_i q; exact hu q
      · cases h4
      · cases h4
      · cases h4
    | some er' =>
      have hx := h3 er' he
      have hne : er' ≠ .interrupted := fun q => hf2.kind.err (by rw [he, q])
      have hb := hf2.of_error (.inl (by rw [he]; rfl))
      cases hx
      refine ⟨?_, ?_, hne⟩
      · unfold Blank
        rw [(Out.takeError_same o2).1]
        exact hb
      · unfold Out.takeError
        simp only [he]
        cases er with
        | interrupted => exact absurd rfl hne
        | io => rfl
        | processor => rfl
  · rintro b rfl
    cases he : o2.error with
    | some er => exact nomatch h3 er he
    | none =>
      have h4 := h4 he
      have hsound : t.sat = .sat → ∃ τ, cnfSat τ a.clauses ∧ allHold τ a.assumptions := fun q => by
        obtain ⟨⟨τ, t1, t2, -⟩, -⟩ := k1.b.sat q
        exact ⟨τ, t1, t2⟩
      split at h4
      · cases h4
      · rename_i q
        cases h4
        exact ⟨.sat a (hsound q), by rw [q]; simp, by simp [q]⟩
      · rename_i q
        cases h4
        exact ⟨.unsat a fun τ q1 _ => (k1.unsat q).1 τ q1, by rw [q]; simp, by simp [q]⟩
      · rename_i q
        cases h4
        exact ⟨.unsat a (k1.under q), by rw [q]; simp, by simp [q]⟩
  · cases he : o2.error with
    | some er =>
      refine .inr ⟨er, ?_, h3 er he⟩
      unfold Out.takeError
      simp only [he]
    | none =>
      have hn : o1.error = none := by
        cases hq : o1.error with
        | none => rfl
        | some _ =>
          have := hheld.some_ (by rw [hq]; rfl)
          rw [he] at this; cases this
      obtain rfl := k5 hn
      refine .inl ⟨?_, rfl, decide (t.sat = .sat), ?_, rfl⟩
      · unfold Out.takeError
        simp only [he]
      · have h4 := h4 he
        have hu : t.sat ≠ .unknown := k2.resolve_right fun q => by rw [hn] at q; cases q
        rw [h4]
        cases hq : t.sat with
        | unknown => exact absurd hq hu
        | sat => rfl
        | unsat => rfl
        | unsatUnder => rfl

/-- A `solve` without errors. -/
theorem St.solveI_of_joint {n : Nat} {s s' : St α} {o o' : Sess} {r : List Nat} (hf : Settled env o) (h : s.joint e env (.solve n) o = .ok (s', o', r, none)) :
    ∃ b, s.solveI e env n o = .ok (s', o', .answer b) ∧ r = [if b then 1 else 0] := by
  have hst := St.step_of_joint h
  unfold St.joint at h
  rw [hst] at h
  simp only at h
  by_cases hi : o.invalid = true
  · rw [if_pos hi] at h; cases h
  · rw [if_neg hi] at h
    split at h
    · cases h
    · rename_i o1 h1
      split at h
      · cases h
      · rename_i o2 h2
        simp only [Except.ok.injEq, Prod.mk.injEq, true_and] at h
        obtain ⟨rfl, h3⟩ := h
        have he2 : o2.error = none := by
          unfold Out.takeError at h3
          split at h3
          · cases h3
          · assumption
        obtain ⟨⟨t, b⟩, q1, q2⟩ := bind_inv (show (s.solve e n >>= fun q => pure (q.1, [if q.2 then 1 else 0])) = .ok (s', r) from hst)
        cases q2
        unfold St.solve at q1
        obtain ⟨t', q3, q4⟩ := bind_inv q1
        cases q4
        obtain ⟨z, z1, z2⟩ := St.rounds_of (o := { o with invoked := true }) rfl q3 h1
        have hn : o1.error = none := by
          cases hq : o1.error with
          | none => rfl
          | some _ =>
            have := (Out.solveFinished_held (hf.invoke.runEvs h1).kind.err h2).some_ (by rw [hq]; rfl)
            rw [he2] at this; cases this
        obtain rfl := z2 hn
        have hu := (solveLoop_logs q3).2.2
        refine ⟨_, ?_, rfl⟩
        unfold solveI Out.takeError
        rw [if_neg hi, z1]
        simp only [h2, he2]
        cases hq : z.sat with
        | unknown => exact absurd hq hu
        | sat => rfl
        | unsat => rfl
        | unsatUnder => rfl

theorem Life.inv {f : Option Out.Format} {check : Bool} {s : St α} {o : Sess} {h : Hist} (x : Life env f check s o h) :
    ∃ a ids, Abs.Run {} h a ∧ Inv a ids s := by
  induction x with
  | new e => exact ⟨{}, _, .nil _, Inv.new e⟩
  | @call s s' o o' h op r e x he hn hs ih =>
    obtain ⟨a, ids, h1, h2⟩ := ih
    have hs := St.step_of_joint hs
    rcases h2.step he op with ⟨k, _⟩ | ⟨k, _⟩ | ⟨s1, r1, b, ids', k1, k2, k3, _⟩
    · rw [k] at hs; cases hs
    · rw [k] at hs; cases hs
    · rw [k1] at hs
      cases hs
      exact ⟨b, ids', .snoc h1 k2, k3⟩
  | solved e x he hs ih =>
    obtain ⟨a, ids, h1, h2⟩ := ih
    obtain ⟨k1, -, k2, -⟩ := h2.solveI x.settled hs
    exact ⟨a, ids, .snoc h1 (k2 _ rfl).1, k1⟩
  | failed e x he hs ih =>
    obtain ⟨a, ids, h1, h2⟩ := ih
    exact ⟨a, ids, h1, (h2.solveI x.settled hs).1⟩
  | close x hc ih => exact ih

end Varisat.Solver
