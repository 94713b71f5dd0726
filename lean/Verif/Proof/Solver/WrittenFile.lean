import Verif.Proof.Solver.Tells
import Verif.Proof.ReadFile
import Verif.Proof.CliCheck
/-!
# A closed proof file is accepted by a checker that was given the clauses before it
-/
namespace Varisat.Out
open Checker (restOf)

variable {env : Env} {f : Option Format} {check : Bool} {P log : List ProofStep} {o o' : Sess}

/-- `close_proof` without an error: the last file. -/
theorem close_format {g : Format} (h : Follows env f check P log o) (hf : f = some g) (hnet : f = some .varisat → netClauses log ≤ 2 ^ 32)
    (hc : close env o = some (o', .unit)) :
    ∃ Q w, log = P ++ Q ∧ o'.files = o.files ++ [⟨g, restOf P ++ Q ++ [.end_], w⟩] ∧
      (g = .varisat → GoodFile (restOf P ++ Q ++ [.end_]) w) ∧
      (g ≠ .varisat → w = restOf P ++ Q ++ [.end_] ∧ ∀ st ∈ w, (Drat.steps st).isSome) := by
  unfold close at hc
  cases hco : closeOutput env o with
  | none => rw [hco] at hc; cases hc
  | some o4 =>
    rw [hco] at hc
    have hB4 := closeOutput_bits h.bits hco
    simp only at hc
    have hne : o4.error = none ∧ o' = o4 := by
      unfold takeError at hc
      cases he : o4.error with
      | none => rw [he] at hc; cases hc; exact ⟨rfl, rfl⟩
      | some x => rw [he] at hc; cases hc
    obtain ⟨hne, rfl⟩ := hne
    unfold closeOutput at hco
    cases ha : addStep env o .end_ with
    | none => rw [ha] at hco; cases hco
    | some o2 =>
      rw [ha] at hco
      simp only [Option.some.injEq] at hco
      have herr : ∀ x : Sess, (flush env x).error = none → x.error = none := by
        intro x hx
        unfold flush handleIo at hx
        split at hx
        · split at hx
          · exact hx
          · cases hx
        · exact hx
      have hfl : (flush env o2).error = none := by rw [← hco] at hne; exact hne
      have h2 := herr o2 hfl
      have hsame : (flush env o2).proof = o2.proof ∧ (flush env o2).files = o2.files := by
        unfold flush handleIo at hfl ⊢
        split
        · rename_i hs
          rw [if_pos hs] at hfl
          split
          · exact ⟨rfl, rfl⟩
          · rename_i hio
            rw [if_neg hio] at hfl
            cases hfl
        · exact ⟨rfl, rfl⟩
      unfold addStep at ha
      split at ha
      · rename_i he
        cases ha
        rw [h2] at he; cases he
      · rename_i he
        have hke := h.keep (by simpa using he)
        have hfo : o.proof.format = some g := hke.1.trans hf
        rcases writeOut_full (env := env) (st := .end_) h.bits (fun hf' => by
          rw [h.cnt hf']; simpa [delta] using hnet (hke.1.symm.trans hf')) with ⟨-, -, q⟩ | ⟨o1, ok, e1, e2, e3, e4, e5, e6, e7, e8⟩
        · cases q
        rw [e1] at ha
        cases ok with
        | false =>
          cases ha
          cases h2
        | true =>
          have g2 := e7 (by rw [hfo]; rfl) rfl
          have hfile : o2.files = o1.files ∧ o2.proof.format = o1.proof.format ∧ o2.proof.given = o1.proof.given ∧
              o2.proof.written = o1.proof.written := by
            simp only at ha
            unfold tell at ha
            split at ha
            · rename_i c hc
              cases hcs : Checker.selfCheckStep env.chk .end_ c with
              | ok u K => rw [hcs] at ha; cases ha; exact ⟨rfl, rfl, rfl, rfl⟩
              | error x K =>
                rw [hcs] at ha
                cases x <;> cases ha
                cases h2
            · cases ha; exact ⟨rfl, rfl, rfl, rfl⟩
          have hfs : o1.files = o.files := by
            have hp : ∀ s x, (put env s x).1.files = s.files := by
              intro s x; unfold put; split <;> rfl
            have hps : ∀ s x y, (putStep env s x y).1.files = s.files := by
              intro s x y
              have := hp s y
              unfold putStep
              generalize put env s y = z at *
              obtain ⟨a, b⟩ := z
              simp only
              split <;> exact this
            have e1 := e1
            unfold writeOut at e1
            split at e1
            · unfold writeVarisat at e1
              simp only at e1
              split at e1
              · split at e1
                · cases e1
                · split at e1
                  · cases e1
                  · have := congrArg (fun x => x.map (fun y => y.1.files)) e1
                    simp only [Option.map_some, Option.some.injEq] at this
                    rw [← this, hps, hp]
              · simp only [Bool.not_true, Bool.false_eq_true, if_false] at e1
                split at e1
                · cases e1
                · have := congrArg (fun x => x.map (fun y => y.1.files)) e1
                  simp only [Option.map_some, Option.some.injEq] at this
                  rw [← this, hps]
            · split at e1
              · have := congrArg (fun x => x.map (fun y => y.1.files)) e1
                simp only [Option.map_some, Option.some.injEq] at this
                rw [← this, hps]
              · cases e1
            · cases e1; rfl
          obtain ⟨Q, q1, q2⟩ := h.file (by rw [hfo]; rfl)
          refine ⟨Q, o2.proof.written, q1, ?_⟩
          have key : o'.files = o.files ++ [⟨g, restOf P ++ Q ++ [.end_], o2.proof.written⟩] := by
            rw [← hco]
            show (flush env o2).files ++ (flush env o2).proof.file = _
            rw [hsame.1, hsame.2, hfile.1, hfs]
            unfold Proof.file
            rw [hfile.2.1, e2, hfo, hfile.2.2.1, g2, q2]
          refine ⟨key, fun hg => ?_, fun hg => ?_⟩
          · exact (FilesOk.split.1 hB4.files).1 ⟨g, restOf P ++ Q ++ [.end_], o2.proof.written⟩ (by rw [key]; simp) hg
          · have hd : IsDrat o.proof.format := ⟨g, hfo, hg⟩
            obtain ⟨r1, r2⟩ := h.raw hd
            rw [hfile.2.2.2, (e8 hd rfl).1, r1, q2]
            refine ⟨rfl, fun x hx => ?_⟩
            rcases List.mem_append.1 hx with hx | hx
            · exact r2 x (by rw [r1, q2]; exact hx)
            · rw [List.mem_singleton.1 hx]; rfl

theorem close_file (h : Follows env f check P log o) (hf : f = some .varisat) (hnet : netClauses log ≤ 2 ^ 32)
    (hc : close env o = some (o', .unit)) :
    ∃ Q w, log = P ++ Q ∧ o'.files = o.files ++ [⟨.varisat, restOf P ++ Q ++ [.end_], w⟩] ∧
      GoodFile (restOf P ++ Q ++ [.end_]) w := by
  obtain ⟨Q, w, h1, h2, h3, -⟩ := close_format h hf (fun _ => hnet) hc
  exact ⟨Q, w, h1, h2, h3 rfl⟩

end Varisat.Out

namespace Varisat.Checker

theorem mem_restOf {st : ProofStep} : ∀ {L : List ProofStep}, st ∈ restOf L → st ∈ L
  | [], h => h
  | x :: L, h => by
    by_cases hx : ∃ c, x = .addClause c
    · obtain ⟨c, rfl⟩ := hx
      exact List.mem_cons_of_mem _ (mem_restOf (L := L) h)
    · have e : restOf (x :: L) = x :: restOf L := by
        cases x <;> first | rfl | exact absurd ⟨_, rfl⟩ hx
      rw [e] at h
      rcases List.mem_cons.1 h with rfl | h
      · exact List.mem_cons_self
      · exact List.mem_cons_of_mem _ (mem_restOf h)

theorem View.AccAll.noEnd {t : Bool} : ∀ {L : List ProofStep} {V : View}, V.AccAll t L → ProofStep.end_ ∉ L
  | [], _, _ => by simp
  | st :: L, V, h => by
    simp only [List.mem_cons, not_or]
    refine ⟨?_, View.AccAll.noEnd h.2⟩
    rintro rfl
    exact h.1.1

theorem StepFits.cut {st : ProofStep} (h : StepFits st) (b : Nat) : StepFits (st.cut b) := by
  have hc : ∀ h, h < 2 ^ 64 → cutHash b h < 2 ^ 64 := fun h hh => Nat.lt_of_le_of_lt (Nat.div_le_self _ _) hh
  cases st with
  | atClause r c hs =>
    refine ⟨h.1, by simpa using h.2.1, ?_⟩
    intro x hx
    obtain ⟨y, hy, rfl⟩ := List.mem_map.1 hx
    exact hc y (h.2.2 y hy)
  | unitClauses us =>
    refine ⟨by simpa using h.1, ?_⟩
    intro x hx
    obtain ⟨y, hy, rfl⟩ := List.mem_map.1 hx
    exact ⟨(h.2 y hy).1, hc _ (h.2 y hy).2⟩
  | failedAssumptions c hs =>
    refine ⟨h.1, by simpa using h.2.1, ?_⟩
    intro x hx
    obtain ⟨y, hy, rfl⟩ := List.mem_map.1 hx
    exact hc y (h.2.2 y hy)
  | _ => exact h

theorem inStep_fits : ∀ {w G : List ProofStep} {b : Nat}, InStep b G w → (∀ st ∈ G, StepFits st) →
    (∀ b', .changeHashBits b' ∈ w → b' ≤ 64) → ∀ st ∈ w, StepFits st
  | [], _, _, _, _, _ => by simp
  | x :: w, G, b, h, hG, hb => by
    by_cases hx : ∃ b', x = .changeHashBits b'
    · obtain ⟨b', rfl⟩ := hx
      have h : InStep b' G w := by cases G <;> exact h
      intro st hst
      rcases List.mem_cons.1 hst with rfl | hst
      · have := hb b' (by simp)
        show b' < 2 ^ 32
        omega
      · exact inStep_fits h hG (fun b'' hm => hb b'' (by simp [hm])) st hst
    · have hbit : x.isBits = false := by
        cases x <;> first | rfl | exact absurd ⟨_, rfl⟩ hx
      cases G with
      | nil => exact ((InStep.nil_cons hbit).1 h).elim
      | cons st G =>
        obtain ⟨h1, h2⟩ := (InStep.cons hbit).1 h
        intro y hy
        rcases List.mem_cons.1 hy with rfl | hy
        · rw [h1]; exact StepFits.cut (hG st (by simp)) b
        · exact inStep_fits h2 (fun z hz => hG z (by simp [hz])) (fun b'' hm => hb b'' (by simp [hm])) y hy

end Varisat.Checker

namespace Varisat.Solver
open Checker (addsOf restOf View Shown ShownT Accepting execs checkProof)
open Api (Hist added Plain)
open Fmt (writeStep)

variable {α : Type} [LinearOrder α] {env : Out.Env} {check : Bool}

/-- The file written for a history, read by a checker that was given the clauses added before the first `solve`. -/
theorem written_accepted (ha : Accepting env.chk) {cenv : Checker.Env} (hca : Accepting cenv) (fill : Nat → Nat) {s : St α}
    {o o' : Out.Sess} {h : Hist} (x : Joint env (some .varisat) check s o h) (l : Limits (some .varisat) s)
    (hp : Plain (before h)) (hfit : ∀ st ∈ s.log, StepFits st)
    (ht : cenv.hasTranscript = true → ∀ c ∈ added (before h), ∀ l ∈ c, l.neg ∉ c)
    (hc : Out.close env o = some (o', .unit)) :
    ∃ given w, o'.files = o.files ++ [⟨.varisat, given, w⟩] ∧
      ∃ K0 K, execs cenv ((added (before h)).map .add) {} = .ok () K0 ∧
        checkProof cenv fill (w.flatMap writeStep) K0 = .ok () K ∧ K.ended = true ∧ (K.unsat = true ↔ s.sat = .unsat) ∧
        (s.sat = .unsat → Checker.Refutes K.out) ∧
        ∃ (s0 : St α) (Q w0 : List ProofStep) (K1 : Checker.St), Exec s0 (before h) ∧ s.log = s0.log ++ Q ∧
          s0.vars.gfs.len ≤ s.vars.gfs.len ∧ InStep 64 (restOf s0.log ++ Q) w0 ∧
          execs cenv ((added (before h)).map .add ++ w0.map .step) {} = .ok () K1 ∧
          Checker.processUnitConflicts cenv { K1 with step := K1.step + 1, ended := true } = .ok () K := by
  obtain ⟨-, -, s0, x0, hF, hle⟩ := x.follows ha l
  obtain ⟨Q, w, q1, q2, q3⟩ := Out.close_file hF rfl (l.net rfl _ (List.prefix_refl _)) hc
  refine ⟨_, w, q2, ?_⟩
  obtain ⟨a, ids, -, hi, htr⟩ := x.exec.tracked l.vars
  obtain ⟨V, hV, hsim⟩ := htr.view
  have hV := hV.full l.fine
  have hl0 : s0.vars.gfs.len < 2 ^ 32 := Nat.lt_of_le_of_lt hle l.vars
  have hns : NoSolve (before h) := before_noSolve h
  obtain ⟨-, t2, t3, -⟩ := x0.tells hns hp hl0
  -- the clauses of the user first
  have hS : ShownT cenv.hasTranscript ((added (before h)).map .addClause ++ (restOf s0.log ++ Q)) V := by
    rw [q1] at hV
    obtain ⟨h1, rfl⟩ := Checker.shown_iff.1 hV
    obtain ⟨h2, h3⟩ := h1.left
    obtain ⟨h4, h5⟩ := h2.reorder t2
    have h6 : ((addsOf s0.log).map ProofStep.addClause).foldl View.step {} = ((added (before h)).map ProofStep.addClause).foldl View.step {} := t3
    rw [h6] at h4 h5
    rw [← h5] at h3
    refine Checker.shown_iff.2 ⟨(View.AccAll.adds _ (fun _ => rfl) ht).append (h4.append h3).weaken, ?_⟩
    rw [List.foldl_append, List.foldl_append, List.foldl_append, h5]
  obtain ⟨w0, w1, rfl, hi0⟩ := Checker.inStep_end q3.step
  have hrange : ∀ b', .changeHashBits b' ∈ w0 → 6 ≤ b' ∧ b' ≤ 64 := fun b' hm => by
    have := q3.range b' (by simp [hm])
    exact ⟨this.1, this.2.1⟩
  have hrend := (Checker.rendered_adds (added (before h))).follow hi0 (fun b' hm => ⟨by have := hrange b' hm; omega, (hrange b' hm).2⟩)
  obtain ⟨-, K, e1, e2, -⟩ := hS.accepted hca id hrend
  obtain ⟨K0, e3, e4⟩ := Checker.execs_append.1 e1
  have hsub : ∀ st ∈ restOf s0.log ++ Q, st ∈ s.log := by
    intro st hst
    rw [q1]
    rcases List.mem_append.1 hst with hst | hst
    · exact List.mem_append_left _ (Checker.mem_restOf hst)
    · exact List.mem_append_right _ hst
  have hnoend : ProofStep.end_ ∉ restOf s0.log ++ Q := fun hm => ((Checker.shown_iff.1 hV).1.noEnd) (hsub _ hm)
  have hend0 : K0.ended = false := Cli.adds_ended _ e3
  have hloop := Checker.checkLoop_written fill (w1.flatMap writeStep)
    (Checker.inStep_fits hi0 (fun st hst => hfit st (hsub st hst)) (fun b' hm => (hrange b' hm).2))
    (Checker.inStep_noEnd hi0 hnoend) hend0 e4
  have hK : Checker.Sees { K with step := K.step + 1, ended := true } V :=
    e2.quiet (o := []) ⟨⟨e2.c.pre.wf, List.Perm.refl _, rfl, rfl, rfl, rfl, rfl, rfl, rfl⟩, rfl, rfl, by simp⟩ ⟨rfl, rfl, rfl, Nat.le_refl _, rfl, _root_.id⟩
  have hW : Checker.Witnessed { K with step := K.step + 1, ended := true } := by
    have := Checker.witnessed_execs .init e1 .init
    exact this
  obtain ⟨K', p1, p2, p3, p6, p4, p5⟩ := Checker.processUnitConflicts_sees hca hK hW
  refine ⟨K0, K', e3, ?_, p6, ?_, ?_, s0, Q, w0, K, x0, q1, hle, hi0, e1, p1⟩
  · have hb : (w0 ++ .end_ :: w1).flatMap writeStep = w0.flatMap writeStep ++ (writeStep .end_ ++ w1.flatMap writeStep) := by
      rw [List.flatMap_append, List.flatMap_cons]
    rw [hb]
    show EStateM.bind (Checker.checkLoop cenv fill _) (fun _ => Checker.processUnitConflicts cenv) K0 = _
    unfold EStateM.bind
    rw [hloop]
    exact p1
  · rw [p2.c.unsat]; exact hsim.unsat
  · exact fun hs => p5 (hsim.unsat.2 hs)

end Varisat.Solver
