import Verif.Proof.ProofBuffer
import Verif.Proof.ProofOut
import Verif.Props.C44_SolverErrors
/-!
# C71: the proof is in its target when `solve` answers and when `close_proof` returns

Histories of calls (`Buf.Ran`) on a solver whose search may do anything. Proof steps go through the `BufWriter` of `proof.rs:60` into targets
that may take a part of the bytes offered, or fail, at any call (`Dev.target`). `Whole f L data` says that `data` are the steps `L` in the
format `f`.

The claim that every byte is in the target or an error is returned fails if `write_proof` replaces a target (`C71.replaced`): the
`BufWriter` is dropped without flushing it first.
-/
namespace Varisat.Out.Buf

variable {d : Dev}

/-- Histories are histories of `ProofOut`, for an environment with the results of the I/O operations. What is proved there for all
environments holds for the `BufWriter` and all targets. -/
theorem C71.refines (hd : d.Ok) {h : List (Op × Ret)} {b : B} (x : Ran d {} h b) :
    ∃ e : Env, e.chk = d.chk ∧ Out.Ran e {} h b.s ∧ b.s.ios = b.log.length ∧ ∀ n, n < b.s.ios → e.io n = b.log.getD n false := by
  obtain ⟨h1, -, h3⟩ := x.runs hd inv_new
  refine ⟨_, rfl, h3 _ (agrees_exists d b.log), h1.ios, fun n hn => ?_⟩
  rw [h1.ios] at hn
  simp [List.getD, hn]

/-- And the other way round: if `ProofOut` has a result for all environments, there is one here, too. -/
theorem C71.returns (hd : d.Ok) {h : List (Op × Ret)} {b : B} (x : Ran d {} h b) (op : Op)
    (hop : ∀ e : Env, e.chk = d.chk → Out.Ran e {} h b.s → (op.exec e b.s).isSome) : (call d b op).isSome := by
  obtain ⟨h1, -, h3⟩ := x.runs hd inv_new
  have := call_runs hd h1 op
  cases hc : call d b op with
  | some c => rfl
  | none =>
    rw [hc] at this
    obtain ⟨L, g1, g2⟩ := this
    have ha := agrees_exists d L
    have := hop _ rfl (h3 _ (ha.mono g1))
    rw [show Op.exec _ b.s op = none from g2 _ ha] at this
    cases this

/-- **C71**: when `solve` answers, the target it had before has all steps written so far, and no I/O operation has failed. -/
theorem C71.answered (hd : d.Ok) {h : List (Op × Ret)} {b b' : B} {steps : List (List Ev)} {r : Bool} {f : Format} (x : Ran d {} h b)
    (hf : b.s.proof.format = some f) (hs : solve d steps b = some (b', some (.answer r))) :
    Whole f b'.s.proof.written b'.w.data ∧ b.s.proof.written <+: b'.s.proof.written ∧ b'.s.proof.format = some f ∧ b'.files = b.files ∧ false ∉ b'.log := by
  obtain ⟨h1, -, h3⟩ := x.runs hd inv_new
  obtain ⟨k1, k2, -, k4⟩ := solve_same hs
  rw [hf] at k1
  have hr := solve_runs hd steps h1
  rw [hs] at hr
  obtain ⟨g1, g2, g3⟩ := hr
  have hbuf := solve_flushed hd h1 hs (by rw [k1]; rfl)
  have ht : enc f b'.s.proof.written = _ := (Inv.cur g1 f k1).target
  rw [hbuf, List.append_nil] at ht
  refine ⟨?_, k4, k1, k2, fun hm => ?_⟩
  · rw [← ht]; exact (Inv.sup g1 f k1).whole
  · have ha := agrees_exists d b'.log
    have := (C44.never_answers (h3 _ (ha.mono g2)) (g3 _ ha)).1
    obtain ⟨n, hn, he⟩ := List.getElem_of_mem hm
    have h5 := this n (by rw [Inv.ios g1]; exact hn)
    rw [ha.2.2 n false (by rw [List.getElem?_eq_getElem hn, he])] at h5
    cases h5

/-- When `close_proof` returns without an error, the target has all steps, the last of them is the end marker. -/
theorem C71.closed (hd : d.Ok) {h : List (Op × Ret)} {b b' : B} {f : Format} (x : Ran d {} h b) (hf : b.s.proof.format = some f)
    (hc : close d b = some (b', some .unit)) :
    ∃ data x, b'.files = b.files ++ [data] ∧ b'.s.files = b.s.files ++ [x] ∧ x.format = f ∧ Whole f x.written data ∧ x.written.getLast? = some .end_ :=
  close_whole hd (x.runs hd inv_new).1 hf hc

/-- At any time, at most the contents of the buffer is missing. -/
theorem C71.buffered (hd : d.Ok) {h : List (Op × Ret)} {b : B} {f : Format} (x : Ran d {} h b) (hf : b.s.proof.format = some f) :
    ∃ rest, rest.length ≤ 8192 ∧ Whole f b.s.proof.written (b.w.data ++ rest) := by
  have h1 := (x.runs hd inv_new).1
  refine ⟨b.w.buf, (h1.cur f hf).cap, ?_⟩
  have ht : enc f b.s.proof.written = _ := (h1.cur f hf).target
  rw [← ht]
  exact (h1.sup f hf).whole

/-- Former targets have a beginning of the steps written to them, followed by at most one step whose write failed. -/
theorem C71.former (hd : d.Ok) {h : List (Op × Ret)} {b : B} (x : Ran d {} h b) :
    List.Forall₂ (fun data (y : File) => ∃ tail bytes, tail.length ≤ 1 ∧ Whole y.format (y.written ++ tail) bytes ∧ data <+: bytes) b.files b.s.files :=
  (x.runs hd inv_new).1.files.imp fun _ _ ⟨tail, h1, h2, h3⟩ => ⟨tail, _, h1, h2.whole, h3⟩

/-- A write or flush that failed is returned as an error by `solve`, if no call has returned it before and the proof output was set up
first. -/
theorem C71.reported_partial (hd : d.Ok) {h : List (Op × Ret)} {b : B} (x : Ran d {} h b) (hset : SetupFirst h)
    (hnew : ∀ x ∈ h, ∀ er, x.2 = .err er → er = .interrupted) (herr : false ∈ b.log) (steps : List (List Ev)) :
    ∃ b' er, solve d steps b = some (b', some (.err er)) ∧ (er = .io ∨ er = .processor ∧ 0 < b.s.rejected) := by
  obtain ⟨h1, -, h3⟩ := x.runs hd inv_new
  have hb : ∀ e, Agrees d e b.log → ∃ s' er, Out.solve e steps b.s = some (some (s', .err er)) ∧ (er = .io ∨ er = .processor ∧ 0 < b.s.rejected) := by
    intro e he
    obtain ⟨n, hn, hx⟩ := List.getElem_of_mem herr
    obtain ⟨s', er, g1, g2⟩ := C44.first_partial (h3 e he) hset hnew (.inl ⟨n, by rw [h1.ios]; exact hn, he.2.2 n false (by rw [List.getElem?_eq_getElem hn, hx])⟩) steps
    exact ⟨s', er, g1, g2.imp (·.1) id⟩
  have hr := solve_runs hd steps h1
  rcases hs : solve d steps b with _ | ⟨b', r⟩
  · rw [hs] at hr
    obtain ⟨L, g1, g2⟩ := hr
    have ha := agrees_exists d L
    obtain ⟨s', er, k, -⟩ := hb _ (ha.mono g1)
    rw [show Out.solve _ steps b.s = none from g2 _ ha] at k
    cases k
  · rw [hs] at hr
    obtain ⟨-, g1, g2⟩ := hr
    have ha := agrees_exists d b'.log
    obtain ⟨s', er, k, k'⟩ := hb _ (ha.mono g1)
    have := (g2 _ ha).symm.trans k
    cases r with
    | none => cases this
    | some r =>
      simp only [Option.map_some, Option.some.injEq, Prod.mk.injEq] at this
      exact ⟨b', er, by rw [this.2], k'⟩

/-- The first target is a file on a full disk, the next ones are not. -/
def firstFull : Dev where
  target n := if n = 0 then .full else .all
  split bs := [bs]
  chk := plainChk

theorem firstFull_ok : firstFull.Ok := fun bs => by simp [firstFull]

/-- Calls in which a second `write_proof` replaces a target. -/
def replacing : List Op :=
  [.writeProof .varisat, .call [.step (.userVarName 0 (some 0))], .writeProof .varisat, .call [.step (.userVarName 1 (some 1))],
    .solve [[.sat .sat]], .close]

/-- The full claim is false: a step was written to the first target without an error, it is not there, and no call returns an error. -/
theorem C71.replaced : ∃ d h b x, d.Ok ∧ Ran d {} h b ∧ h = [(.writeProof .varisat, .unit), (.call [.step (.userVarName 0 (some 0))], .unit),
      (.writeProof .varisat, .unit), (.call [.step (.userVarName 1 (some 1))], .unit), (.solve [[.sat .sat]], .answer true), (.close, .unit)] ∧
    b.s.files.head? = some x ∧ x.written = [.userVarName 0 (some 0)] ∧ b.files.head? = some [] ∧ false ∉ b.log := by
  obtain ⟨b, h, hr, hf⟩ := peek (d := firstFull) (ops := replacing)
    (f := fun b h => decide (h = [(.writeProof .varisat, .unit), (.call [.step (.userVarName 0 (some 0))], .unit),
      (.writeProof .varisat, .unit), (.call [.step (.userVarName 1 (some 1))], .unit), (.solve [[.sat .sat]], .answer true), (.close, .unit)] ∧
      b.s.files.head?.map (·.written) = some [.userVarName 0 (some 0)] ∧ b.files.head? = some [] ∧ false ∉ b.log)) (by decide +kernel)
  obtain ⟨h1, h2, h3, h4⟩ := of_decide_eq_true hf
  obtain ⟨x, h5, h6⟩ := Option.map_eq_some_iff.1 h2
  exact ⟨firstFull, h, b, x, firstFull_ok, hr, h1, h5, h6, h3, h4⟩

/-! Tests: a target that takes three bytes at a time. The first `solve` answers with all steps in the target; the disk is full when the proof is closed. -/

/-- Takes three bytes at a time, and nothing from the fourth call on. -/
def small : Dev where
  target _ := ⟨fun n => if n < 3 then some 3 else none, fun _ => true⟩
  split bs := bs.map ([·])
  chk := plainChk

theorem small_ok : small.Ok := fun bs => by
  show (bs.map ([·])).flatten = bs
  induction bs with
  | nil => rfl
  | cons b bs ih => simp [ih]

def named : List Op := [.writeProof .varisat, .call [.step (.userVarName 0 (some 0)), .step (.userVarName 1 (some 1)), .nonEmpty]]

example : ∃ h b b', Ran small {} h b ∧ b.s.proof.format = some .varisat ∧ b.w.data = [] ∧ solve small [[.sat .sat]] b = some (b', some (.answer true)) ∧
    b'.w.data.length = 6 ∧ Whole .varisat b'.s.proof.written b'.w.data := by
  obtain ⟨b, h, hr, hf⟩ := peek (d := small) (ops := named) (f := fun b h => decide (b.s.proof.format = some .varisat ∧ b.w.data = []) &&
    (match solve small [[.sat .sat]] b with | some (b', some (.answer true)) => b'.w.data.length == 6 | _ => false)) (by decide +kernel)
  rw [Bool.and_eq_true] at hf
  obtain ⟨h1, h2⟩ := of_decide_eq_true hf.1
  have h3 := hf.2
  split at h3
  · rename_i b' hs
    exact ⟨h, b, b', hr, h1, h2, hs, by simpa using h3, (C71.answered small_ok hr h1 hs).1⟩
  · cases h3

/-- A step that does not fit into the buffer. -/
def long : List Op := [.writeProof .drat, .call [.nonEmpty, .step (.atClause true (List.replicate 4500 ⟨3⟩) [])]]

example (steps : List (List Ev)) : ∃ h b, Ran firstFull {} h b ∧ SetupFirst h ∧ false ∈ b.log ∧ ∃ b' er, solve firstFull steps b = some (b', some (.err er)) := by
  obtain ⟨b, h, hr, hf⟩ := peek (d := firstFull) (ops := long) (f := fun b h => decide (b.log = [false] ∧ (∀ x ∈ h, x.2 = .unit) ∧
    h.Pairwise fun (a c : Op × Ret) => c.1.isSetup = true → a.1.isSetup = true)) (by decide +kernel)
  obtain ⟨h2, h3, hset⟩ := of_decide_eq_true hf
  have hl : false ∈ b.log := by rw [h2]; simp
  obtain ⟨b', er, k, -⟩ := C71.reported_partial firstFull_ok hr hset (fun x hx er he => by rw [h3 x hx] at he; cases he) hl steps
  exact ⟨h, b, hr, hset, hl, b', er, k⟩

/-- Takes three bytes at a time. -/
def wide : Dev := { small with target := fun _ => ⟨fun _ => some 3, fun _ => true⟩ }

theorem wide_ok : wide.Ok := small_ok

/-- The proof is complete after closing. -/
example : ∃ h b b', Ran wide {} h b ∧ close wide b = some (b', some .unit) ∧ ∃ x, b'.s.files = [x] ∧ b'.files = [x.written.flatMap Fmt.writeStep] := by
  obtain ⟨b, h, hr, hf⟩ := peek (d := wide) (ops := [.writeProof .varisat, .call [.step (.userVarName 0 (some 0))]]) (f := fun b _ =>
    decide (b.s.proof.format = some .varisat ∧ b.s.files = [] ∧ b.files = []) && (match close wide b with | some (_, some .unit) => true | _ => false)) (by decide +kernel)
  rw [Bool.and_eq_true] at hf
  obtain ⟨h1, h2, h2'⟩ := of_decide_eq_true hf.1
  have h3 := hf.2
  split at h3
  · rename_i b' hs
    obtain ⟨data, x, k1, k2, k3, k4, -⟩ := C71.closed wide_ok hr h1 hs
    rw [h2'] at k1
    rw [h2] at k2
    exact ⟨h, b, b', hr, hs, x, k2, by rw [k1]; exact congrArg ([·]) k4⟩
  · cases h3

end Varisat.Out.Buf
