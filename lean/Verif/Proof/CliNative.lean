import Verif.Proof.CliDisk
/-!
# Proofs about what is missing of a native proof file

When there is a verdict, the file has all steps. What follows is the end marker, before which the number of hash bits may change.
-/
namespace Varisat.Out

/-- The steps written when a native proof is closed. -/
def lastSteps (s : Sess) : List ProofStep :=
  if rehashed s.invoked (s.proof.count + delta .end_) s.proof.hashBits then [.changeHashBits (nextBits s.invoked (s.proof.count + delta .end_) s.proof.hashBits), .end_]
  else [.end_]

/-- The steps of the only file, in use or dropped. -/
def OnlyFile (L : List ProofStep) (s : Sess) : Prop :=
  s.proof.format = some .varisat ∧ s.files = [] ∧ s.proof.written = L ∨ s.proof.format = none ∧ ∃ x : File, s.files = [x] ∧ x.format = .varisat ∧ x.written = L

theorem OnlyFile.file {L : List ProofStep} {s : Sess} (h : OnlyFile L s) : ∃ x : File, s.files ++ s.proof.file = [x] ∧ x.format = .varisat ∧ x.written = L := by
  unfold Proof.file
  rcases h with ⟨h1, h2, h3⟩ | ⟨h1, x, h2, h3⟩
  · exact ⟨⟨.varisat, s.proof.given, s.proof.written⟩, by rw [h1, h2]; rfl, rfl, h3⟩
  · exact ⟨x, by rw [h1, h2]; rfl, h3⟩

/-- Closing a native proof without failing writes. -/
theorem close_native {env : Env} (hio : ∀ n, env.io n = true) {o o' : Sess} {r : Ret} (hf : o.proof.format = some .varisat) (he : o.error = none)
    (h0 : o.files = []) (hc : close env o = some (o', r)) :
    ∃ x : File, o'.files = [x] ∧ x.format = .varisat ∧ x.written = o.proof.written ++ lastSteps o := by
  unfold close closeOutput at hc
  cases h1 : addStep env o .end_ with
  | none => rw [h1] at hc; cases hc
  | some o1 =>
    rw [h1] at hc
    have k1 : OnlyFile (o.proof.written ++ lastSteps o) o1 := by
      unfold addStep at h1
      rw [if_neg (by simp [he])] at h1
      cases h2 : writeOut env o .end_ with
      | none => rw [h2] at h1; cases h1
      | some q =>
        obtain ⟨o2, ok⟩ := q
        have h3 : ok = true ∧ OnlyFile (o.proof.written ++ lastSteps o) o2 := by
          unfold writeOut at h2
          rw [hf] at h2
          simp only at h2
          unfold writeVarisat at h2
          simp only at h2
          unfold lastSteps
          by_cases hr : rehashed o.invoked (o.proof.count + delta .end_) o.proof.hashBits = true
          · simp only [hr, if_true, put, hio, Bool.not_true, Bool.false_eq_true, if_false] at h2 ⊢
            split at h2
            · cases h2
            · simp only [putStep, put, hio, if_true, Option.some.injEq, Prod.mk.injEq] at h2
              obtain ⟨rfl, rfl⟩ := h2
              exact ⟨rfl, .inl ⟨hf, h0, by simp [mapHashes]⟩⟩
          · simp only [hr, Bool.not_true, Bool.false_eq_true, if_false] at h2 ⊢
            split at h2
            · cases h2
            · simp only [putStep, put, hio, if_true, Option.some.injEq, Prod.mk.injEq] at h2
              obtain ⟨rfl, rfl⟩ := h2
              exact ⟨rfl, .inl ⟨hf, h0, by simp [mapHashes]⟩⟩
        obtain ⟨rfl, h4⟩ := h3
        rw [h2] at h1
        simp only at h1
        unfold tell at h1
        split at h1
        · unfold handleCheck at h1
          split at h1
          · cases h1; exact h4
          · cases h1
            exact .inr ⟨rfl, h4.file⟩
          · cases h1
        · cases h1; exact h4
    have k2 : flush env o1 = o1 ∨ flush env o1 = { o1 with ios := o1.ios + 1 } := by
      unfold flush handleIo
      split
      · rw [hio]; exact .inr rfl
      · exact .inl rfl
    have k3 : OnlyFile (o.proof.written ++ lastSteps o) (flush env o1) := by rcases k2 with k2 | k2 <;> rw [k2] <;> exact k1
    obtain ⟨x, k4, k5⟩ := k3.file
    simp only at hc
    refine ⟨x, ?_, k5⟩
    rw [← k4]
    unfold takeError at hc
    split at hc
    all_goals
      rename_i hq
      split at hq
      all_goals
        cases hq
        first | (cases hc; rfl) | rfl | skip

namespace Buf
open Lrat (Target)
open Lrat.Io (F)

variable {d : Dev} {D E : Bytes}

/-- The only target has at least `D`, and with the buffer at most `E`. -/
def Between (D E : Bytes) (b : B) : Prop :=
  b.s.proof.format = some .varisat ∧ b.files = [] ∧ D <+: b.w.data ∧ b.w.data ++ b.w.buf <+: E ∨ b.s.proof.format = none ∧ ∃ x, b.files = [x] ∧ D <+: x ∧ x <+: E

theorem Between.left {b : B} (h : Between D E b) : ∃ x, b.files ++ b.left d = [x] ∧ D <+: x ∧ x <+: E := by
  unfold B.left
  rcases h with ⟨h1, h2, h3, h4⟩ | ⟨h1, x, h2, h3⟩
  · exact ⟨_, by rw [h1, h2]; rfl, h3.trans (discard_grows _ _), (discard_data _ _).trans h4⟩
  · exact ⟨x, by rw [h1, h2]; rfl, h3⟩

theorem Between.drop {b : B} (h : Between D E b) : Between D E (b.drop d) := .inr ⟨rfl, h.left⟩

theorem Between.tell {b b' : B} {m : Checker.CM Unit} (h : Between D E b) (ht : tell d b m = some b') : Between D E b' := by
  unfold Out.Buf.tell at ht
  split at ht
  · unfold handleCheck at ht
    split at ht
    · cases ht; exact h
    · cases ht; exact h.drop (d := d)
    · cases ht
  · cases ht; exact h

theorem flushTarget_data {t : Target} {w w' : F} (h : Lrat.Io.flushTarget t w = .ok () w' ∨ Lrat.Io.flushTarget t w = .error () w') :
    w.data <+: w'.data ∧ w'.data ++ w'.buf = w.data ++ w.buf := by
  unfold Lrat.Io.flushTarget at h
  rcases hd : Lrat.Io.drain t w.buf w.calls w.data with ⟨ok, rest, k', d'⟩
  have hs := (Lrat.Io.drain_spec _ _ _ hd).1
  have hg : w.data <+: d' := by
    have := Lrat.Io.flushBuf_grows (t := t) w
    unfold Lrat.Io.after Lrat.Io.flushBuf at this
    rw [hd] at this
    cases ok <;> exact this
  have hfb : Lrat.Io.flushBuf t w = if ok then .ok () { w with buf := rest, calls := k', data := d' } else .error () { w with buf := rest, calls := k', data := d' } := by
    unfold Lrat.Io.flushBuf
    rw [hd]
  cases ok with
  | false =>
    simp only [bind, EStateM.bind, hfb, Bool.false_eq_true, if_false] at h
    rcases h with h | h <;> cases h
    exact ⟨hg, hs⟩
  | true =>
    simp only [bind, EStateM.bind, hfb, if_true, get, getThe, MonadStateOf.get, EStateM.get] at h
    split at h
    · rcases h with h | h <;> cases h
      exact ⟨hg, hs⟩
    · rcases h with h | h <;> cases h
      exact ⟨hg, hs⟩

theorem Between.flush {b : B} (h : Between D E b) : Between D E (flush d b) := by
  unfold Out.Buf.flush
  split
  · rename_i hs
    rcases h with ⟨h1, h2, h3, h4⟩ | ⟨h1, -⟩
    swap
    · rw [h1] at hs; cases hs
    split
    · rename_i w hw
      obtain ⟨k1, k2⟩ := flushTarget_data (.inl hw)
      exact .inl ⟨h1, h2, h3.trans k1, by rw [k2]; exact h4⟩
    · rename_i w hw
      obtain ⟨k1, k2⟩ := flushTarget_data (.inr hw)
      have : Between D E { b with s := { b.s with ios := b.s.ios + 1 }, w := w, log := b.log ++ [false] } := .inl ⟨h1, h2, h3.trans k1, by rw [k2]; exact h4⟩
      exact this.drop (d := d)
  · exact h

theorem putAll_grows {t : Target} : ∀ cs : List Bytes, Lrat.Io.Grows (putAll t cs)
  | [] => fun f => List.prefix_refl _
  | c :: cs => by
    unfold putAll
    exact (Lrat.Io.put_grows c).bind (putAll_grows cs)

theorem Between.put (hd : d.Ok) {b : B} (hi : Inv b) (hf : b.s.proof.format = some .varisat) (h : Between D E b) {st : ProofStep}
    (hE : enc .varisat (b.s.proof.written ++ [st]) <+: E) : Between D E (put d b st).1 := by
  rcases h with ⟨-, h2, h3, h4⟩ | ⟨h1, -⟩
  swap
  · rw [hf] at h1; cases h1
  have hp := putAll_at (t := b.target d) (d.split (encode .varisat st)) (hi.cur _ hf)
  rw [hd] at hp
  have hw : (W .varisat b.s.proof.written).put (encode .varisat st) = W .varisat (b.s.proof.written ++ [st]) := by
    simp [W, Lrat.W.put, enc_append, enc]
  rw [hw] at hp
  have hg := putAll_grows (t := b.target d) (d.split (encode .varisat st)) b.w
  unfold Lrat.Io.after at hg
  have hfo : ∀ ok, (Out.put (d.env ok) b.s st).1.proof.format = some .varisat := fun ok => by
    rw [← hf]; unfold Out.put; split <;> rfl
  unfold Out.Buf.put
  simp only [hf]
  rcases hp with ⟨w, h1, k2, -, -⟩ | ⟨w, h1, k2, -⟩
  · rw [h1] at hg ⊢
    have ht : enc .varisat (b.s.proof.written ++ [st]) = w.data ++ w.buf := k2.target
    exact .inl ⟨hfo true, h2, h3.trans hg, by rw [← ht]; exact hE⟩
  · rw [h1] at hg ⊢
    have ht : w.data ++ w.buf <+: enc .varisat (b.s.proof.written ++ [st]) := k2.pre
    exact .inl ⟨hfo false, h2, h3.trans hg, ht.trans hE⟩

theorem put_written (d : Dev) (b : B) (st : ProofStep) (h : (Out.Buf.put d b st).2 = true) :
    (Out.Buf.put d b st).1.s.proof.written = b.s.proof.written ++ [st] := (put_keeps d b st).2.2.2.2 h

/-- Closing a native proof whose steps are all in the target. -/
theorem close_between (hd : d.Ok) {b b' : B} {r : Option Ret} (hi : Inv b) (hf : b.s.proof.format = some .varisat) (hb : b.w.buf = []) (h0 : b.files = [])
    (hc : close d b = some (b', r)) : ∃ x, b'.files = [x] ∧ b.w.data <+: x ∧ x <+: enc .varisat (b.s.proof.written ++ lastSteps b.s) := by
  have htg : enc .varisat b.s.proof.written = b.w.data := by
    have : enc .varisat b.s.proof.written = b.w.data ++ b.w.buf := (hi.cur _ hf).target
    rwa [hb, List.append_nil] at this
  have h : Between b.w.data (enc .varisat (b.s.proof.written ++ lastSteps b.s)) b :=
    .inl ⟨hf, h0, List.prefix_refl _, by rw [hb, List.append_nil, enc_append, htg]; exact List.prefix_append _ _⟩
  generalize hE : enc .varisat (b.s.proof.written ++ lastSteps b.s) = E at h ⊢
  generalize b.w.data = D at h ⊢
  unfold close closeOutput at hc
  cases h1 : addStep d b .end_ with
  | none => rw [h1] at hc; cases hc
  | some b1 =>
    rw [h1] at hc
    have k1 : Between D E b1 := by
      unfold addStep at h1
      split at h1
      · cases h1; exact h
      · cases h2 : writeOut d b .end_ with
        | none => rw [h2] at h1; cases h1
        | some q =>
          obtain ⟨b2, ok⟩ := q
          have h3 : Between D E b2 := by
            have hcI : Inv (count b .end_) := hi.congr rfl rfl rfl rfl rfl rfl rfl
            have hcB : Between D E (count b .end_) := h
            have hps : ∀ (c : B), Inv c → c.s.proof.format = some .varisat → Between D E c → enc .varisat (c.s.proof.written ++ [.end_]) <+: E →
                writeHashed d .end_ c = some (b2, ok) → Between D E b2 := by
              intro c i1 i2 i3 i4 i5
              unfold writeHashed at i5
              split at i5
              · cases i5
              · have hp := i3.put hd i1 i2 i4
                have i5 : putStep d c .end_ .end_ = (b2, ok) := Option.some.inj i5
                unfold putStep at i5
                rcases hq : put d c .end_ with ⟨c', _ | _⟩
                all_goals
                  rw [hq] at i5 hp
                  cases i5
                  exact hp
            unfold writeOut at h2
            rw [hf] at h2
            simp only at h2
            unfold writeVarisat at h2
            unfold lastSteps at hE
            split at h2
            · rename_i hr
              rw [if_pos hr] at hE
              have hp := hcB.put hd hcI hf (st := .changeHashBits (count b .end_).s.proof.hashBits) (by
                rw [← hE]
                show enc .varisat (b.s.proof.written ++ _) <+: _
                rw [enc_append, enc_append]
                exact (List.prefix_append_right_inj _).2 ⟨enc .varisat [.end_], by rw [← enc_append]; rfl⟩)
              have hpi := put_runs hd hcI hf (.changeHashBits (count b .end_).s.proof.hashBits) (fun hn => absurd rfl hn)
              have hpw := put_written d (count b .end_) (.changeHashBits (count b .end_).s.proof.hashBits)
              have hpf := put_format d (count b .end_) (.changeHashBits (count b .end_).s.proof.hashBits)
              rcases hq : put d (count b .end_) (.changeHashBits (count b .end_).s.proof.hashBits) with ⟨c, _ | _⟩
              · rw [hq] at h2 hp; cases h2; exact hp
              · rw [hq] at h2 hp hpi hpw hpf
                refine hps c (by simpa using hpi.1) (hpf.trans hf) hp ?_ h2
                rw [hpw rfl, ← hE]
                show enc .varisat (b.s.proof.written ++ _ ++ _) <+: _
                rw [List.append_assoc]
                exact List.prefix_refl _
            · rename_i hr
              rw [if_neg hr] at hE
              exact hps (count b .end_) hcI hf hcB (by rw [← hE]; exact List.prefix_refl _) h2
          rw [h2] at h1
          cases ok with
          | false => cases h1; exact h3.drop (d := d)
          | true => exact h3.tell h1
    obtain ⟨x, k2, k3⟩ := (k1.flush (d := d)).left (d := d)
    simp only at hc
    have k4 : (takeError (retarget d none (flush d b1))).1.files = [x] := k2
    refine ⟨x, ?_, k3⟩
    rcases ht : takeError (retarget d none (flush d b1)) with ⟨c, _ | _⟩
    all_goals
      rw [ht] at hc k4
      cases hc
      exact k4

/-- A target is still in use only if no operation has failed. -/
def Live (b : B) : Prop := b.s.proof.format.isSome → false ∉ b.log

theorem Live.tell {b b' : B} {m : Checker.CM Unit} (h : Live b) (ht : tell d b m = some b') : Live b' := by
  unfold Out.Buf.tell at ht
  split at ht
  · unfold handleCheck at ht
    split at ht
    · cases ht; exact h
    · cases ht; exact nofun
    · cases ht
  · cases ht; exact h

theorem put_log (d : Dev) (b : B) (st : ProofStep) : (put d b st).1.log = b.log ++ [(put d b st).2] := by
  unfold put
  simp only
  split <;> rfl

theorem Live.put {b : B} (h : Live b) {st : ProofStep} (hp : (put d b st).2 = true) : Live (put d b st).1 := by
  intro hf
  rw [put_format] at hf
  rw [put_log, hp]
  simpa using h hf

theorem Live.writeOut {b b' : B} {st : ProofStep} (h : Live b) (hw : writeOut d b st = some (b', true)) : Live b' := by
  have hs : ∀ (c : B) (out : ProofStep), Live c → some (putStep d c st out) = some (b', true) → Live b' := fun c out hc h => by
    have h := Option.some.inj h
    unfold putStep at h
    rcases hq : Out.Buf.put d c out with ⟨c', _ | _⟩
    · rw [hq] at h; cases h
    · rw [hq] at h
      have := hc.put (st := out) (d := d) (by rw [hq])
      rw [hq] at this
      cases h
      exact this
  unfold Out.Buf.writeOut at hw
  split at hw
  · have hh : ∀ c : B, Live c → writeHashed d st c = some (b', true) → Live b' := by
      intro c hl hc
      unfold writeHashed at hc
      split at hc
      · cases hc
      · exact hs _ _ hl hc
    have hcl : Live (count b st) := h
    unfold writeVarisat at hw
    split at hw
    · rcases hq : Out.Buf.put d (count b st) (.changeHashBits (count b st).s.proof.hashBits) with ⟨c, _ | _⟩
      · rw [hq] at hw; cases hw
      · rw [hq] at hw
        have := hcl.put (st := .changeHashBits (count b st).s.proof.hashBits) (d := d) (by rw [hq])
        rw [hq] at this
        exact hh c this hw
    · exact hh (count b st) hcl hw
  · split at hw
    · exact hs _ _ h hw
    · cases hw
  · cases hw; exact h

theorem Live.addStep {b b' : B} {st : ProofStep} (hl : Live b) (h : addStep d b st = some b') : Live b' := by
  unfold Out.Buf.addStep at h
  split at h
  · cases h; exact hl
  · split at h
    · cases h
    · cases h; exact nofun
    · rename_i c hc
      exact (hl.writeOut hc).tell h

theorem Live.runEvs {evs : List Ev} {b b' : B} (hl : Live b) (h : runEvs d evs b = some b') : Live b' := by
  induction evs generalizing b with
  | nil => cases h; exact hl
  | cons ev evs ih =>
    rw [Out.Buf.runEvs] at h
    split at h
    · cases h
    · rename_i c hc
      refine ih ?_ h
      cases ev with
      | step st => exact hl.addStep hc
      | clause cl =>
        have hc : addClause d b cl = some c := hc
        unfold addClause at hc
        by_cases hi : b.s.invoked = true
        · rw [if_pos hi] at hc
          exact hl.addStep hc
        · rw [if_neg hi] at hc
          cases hq : Out.Buf.tell d b (Checker.addClause d.chk cl) with
          | none => rw [hq] at hc; cases hc
          | some c' =>
            rw [hq] at hc
            cases hc
            have := hl.tell hq
            unfold counted; split
            · exact this
            · exact this
      | sat v => cases hc; exact hl
      | nonEmpty => cases hc; exact hl

theorem Live.flush {b : B} (hl : Live b) : Live (flush d b) := by
  unfold Out.Buf.flush
  split
  · split
    · exact fun hf => by simpa using hl hf
    · exact nofun
  · exact hl

end Buf
end Varisat.Out

namespace Varisat.Cli
open Out (Env)
open Out.Buf (B Dev Inv Live)
open Solver (St Stop)

variable {α : Type} [LinearOrder α] {d : Dev} {e : Solver.Env α}

theorem jointB_live {op : Solver.Op} {b b' : B} {s s' : St α} {r : List Nat} {er : Option Out.SErr}
    (hl : Live b) (hj : jointB e d op s b = some (s', b', r, er)) : Live b' := by
  unfold jointB at hj
  split at hj
  · cases hj
  · split at hj
    · split at hj
      · cases hj
      · split at hj
        · cases hj
        · rename_i b1 h1
          split at hj
          · cases hj
          · rename_i b2 h2
            cases hj
            unfold Out.Buf.solveFinished at h2
            have h0 : Live { b with s := { b.s with invoked := true } } := hl
            have := ((h0.runEvs h1).flush (d := d)).tell h2
            intro hf
            refine this ?_
            have hp : (Out.Buf.takeError b2).1.s.proof = b2.s.proof := by
              unfold Out.Buf.takeError Out.takeError; split <;> rfl
            rwa [hp] at hf
    · split at hj
      · cases hj
      · rename_i h1
        cases hj
        exact hl.runEvs h1

theorem loadB_live {cs : List (List Lit)} {s s' : St α} {b b' : B} (hl : Live b) (h : loadB e d cs (s, b) = some (s', b')) : Live b' := by
  induction cs generalizing s b with
  | nil => cases h; exact hl
  | cons c cs ih =>
    unfold loadB at h
    cases hj : jointB e d (.addClause c) s b with
    | none => simp only [hj] at h; cases h
    | some x =>
      simp only [hj] at h
      exact ih (jointB_live hl hj) h

theorem addFormulasB_live {fs : List CnfFormula} {s s' : St α} {b b' : B} (hl : Live b) (h : addFormulasB e d fs (s, b) = some (s', b')) : Live b' := by
  induction fs generalizing s b with
  | nil => cases h; exact hl
  | cons f fs ih =>
    unfold addFormulasB at h
    split at h
    · cases h
    · split at h
      · cases h
      · rename_i q hq
        obtain ⟨s1, b1⟩ := q
        exact ih (loadB_live hl hq) h

theorem endedB_live {n : Nat} {log : Log} {args : FileArgs} {input : Source} {out out' : Bytes} {code : Nat} {b : B}
    (h : endedB e d n log args input out = some (out', code, b)) : Live b := by
  unfold endedB at h
  split at h
  · cases h; exact nofun
  · simp only at h
    split at h
    · cases h
    · rename_i s1 b1 h1
      have k1 : Live b1 := addFormulasB_live (fun _ => List.not_mem_nil) h1
      split at h
      · cases h; exact k1
      · split at h
        · cases h
        · rename_i a code' b2 h2
          cases h
          unfold answerB at h2
          split at h2
          · cases h2
          · rename_i hj
            cases h2; exact jointB_live k1 hj
          · rename_i hj
            split at h2
            · cases h2; exact jointB_live k1 hj
            · split at h2
              · cases h2; exact jointB_live k1 hj
              · cases h2

/-- A native file, if there is a verdict: all steps, and a part of the last ones; and what it is if nothing fails. -/
theorem solveDisk_native (hd : d.Ok) {n : Nat} {log : Log} {args : FileArgs} {input : Source} {out : Bytes} {out' : Bytes} {code : Nat} {file : Option Bytes}
    (hp : args.proof = some (.steps .varisat, true)) (hc : code = 10 ∨ code = 20)
    (h : solveDisk e d n log args input out = some (out', code, file)) {r : Bytes × Nat × Option Bytes}
    (hw : solveFile e (working d) n log args input out = some r) :
    ∃ data bytes last, file = some bytes ∧ (last = [.end_] ∨ ∃ k, last = [.changeHashBits k, .end_]) ∧ data <+: bytes ∧
      bytes <+: data ++ last.flatMap Fmt.writeStep ∧ r = (out', code, some (data ++ last.flatMap Fmt.writeStep)) := by
  have hfm : args.format = some .varisat := by unfold FileArgs.format; rw [hp]
  unfold solveDisk at h
  rw [solveFile_ended] at hw
  simp only [hp, if_true, Option.map_some] at h hw
  generalize out ++ logLine log.proof = out0 at h hw
  have hr := endedB_runs (e := e) hd n log args input out0
  cases hb : endedB e d n log args input out0 with
  | none => rw [hb] at h; cases h
  | some x =>
    obtain ⟨out1, code1, b⟩ := x
    rw [hb] at hr h
    simp only [Option.bind_some, finishB] at h
    split at h
    · cases h
    · rename_i file1 hdr
      cases h
      obtain ⟨z1, z2, z3, z4, z5, z6⟩ := endedB_verdict hd hb hc
      rw [hfm] at z3 z6
      have hlog := endedB_live hb (by rw [z3]; rfl)
      rw [show ended e (working d) n log args input out0 = _ from hr.2.2 _ (agrees_working hlog)] at hw
      simp only [Option.bind_some, finish] at hw
      unfold droppedB at hdr
      simp only at hdr
      split at hdr
      · cases hdr
      · rename_i b' r0 hcl
        cases hdr
        obtain ⟨bytes, k1, k2, k3⟩ := Out.Buf.close_between hd z1 z3 (z6 rfl) z4 hcl
        split at hw
        · cases hw
        · rename_i file2 hdr2
          cases hw
          unfold dropped at hdr2
          split at hdr2
          · cases hdr2
          · rename_i o' ret hcl2
            obtain ⟨x, q1, q2, q3⟩ := Out.close_native (fun _ => rfl) z3 z2 z5 hcl2
            simp only [q1, List.getLast?_singleton, Option.some.injEq] at hdr2
            have htg : Out.Buf.enc .varisat b.s.proof.written = b.w.data := by
              have : Out.Buf.enc .varisat b.s.proof.written = b.w.data ++ b.w.buf := (z1.cur _ z3).target
              rwa [z6 rfl, List.append_nil] at this
            have hl : (Out.lastSteps b.s).flatMap Fmt.writeStep = Out.Buf.enc .varisat (Out.lastSteps b.s) := rfl
            refine ⟨b.w.data, bytes, Out.lastSteps b.s, by rw [k1]; rfl, ?_, k2, ?_, ?_⟩
            · unfold Out.lastSteps
              split
              · exact .inr ⟨_, rfl⟩
              · exact .inl rfl
            · rw [hl, ← htg, ← Out.Buf.enc_append]; exact k3
            · rw [hl, ← htg, ← Out.Buf.enc_append, ← q3, ← hdr2]; rfl

end Varisat.Cli
