import Verif.Proof.ProofOut
/-!
# C44: solver errors are sticky and reported once

Histories of calls (`Ran`) on a solver whose search may do anything (`Ev`), with any set of failing I/O
operations and any processors. Partial: `close_proof` also returns the error, and then the first `solve` panics
(`C44.close_takes`); which error is returned is only stated if proof output is set up before anything else. "An error has happened" is said in terms of the outside world: one of the
`s.ios` I/O operations so far failed, or a processor returned an error (`s.rejected`).
-/
namespace Varisat.Out

/-- An answer is only returned if no I/O operation has failed and no processor has complained, before or
during that call. -/
theorem C44.never_answers {e : Env} {h : List (Op × Ret)} {s s' : Sess} {steps : List (List Ev)} {b : Bool}
    (hr : Ran e {} h s) (hx : solve e steps s = some (some (s', .answer b))) :
    (∀ n, n < s'.ios → e.io n = true) ∧ s'.rejected = 0 := by
  have hI := hr.errInv
  obtain ⟨hinv, s1, s2, h1, h2, rfl, h3⟩ := solve_elim hx
  have hi : Held s { s with invoked := true } := (Held.refl hI.err).congr rfl rfl
  have hn : Noted e { s with invoked := true } := hI.noted.congr rfl rfl rfl rfl
  have hs := hi.trans (schedule_held hi.err h1)
  have hf := hs.trans (solveFinished_held hs.err h2)
  have hN := solveFinished_noted h2 (schedule_noted h1 hn)
  rcases h3 with ⟨er, h3, h4⟩ | ⟨h3, -⟩
  · cases h4
  · have hc := hN.clean h3 (by rw [hf.invalid]; exact hinv)
    have ht : (takeError s2).1 = s2 := by unfold takeError; rw [h3]
    rw [ht]
    exact ⟨hc.2, hc.1⟩

/-- If an error has happened that was not returned by any call so far, `solve` returns it: at once,
whatever the search would have done, and it is an I/O error exactly if it was an I/O operation that
failed. -/
theorem C44.first_partial {e : Env} {h : List (Op × Ret)} {s : Sess} (hr : Ran e {} h s) (hset : SetupFirst h)
    (hnew : ∀ x ∈ h, ∀ er, x.2 = .err er → er = .interrupted)
    (herr : (∃ n, n < s.ios ∧ e.io n = false) ∨ 0 < s.rejected) (steps : List (List Ev)) :
    ∃ s' er, solve e steps s = some (some (s', .err er)) ∧
      (er = .io ∧ (∃ n, n < s.ios ∧ e.io n = false) ∨ er = .processor ∧ 0 < s.rejected) := by
  have hI := hr.errInv
  have hK := (hr.kind hset).1
  have hinv : s.invalid = false := by
    cases hi : s.invalid with
    | false => rfl
    | true =>
      obtain ⟨x, hm, er, h1, h2⟩ := hI.inv.1 hi
      exact absurd (hnew x hm er h1) h2
  have hs : s.error.isSome := by
    rcases hK.noted herr with h | h
    · exact h
    · rw [hinv] at h; cases h
  obtain ⟨hd1, hd2⟩ := hK.dead hs
  obtain ⟨er, her⟩ := Option.isSome_iff_exists.1 hs
  have h1 : schedule e steps { s with invoked := true } = some (some { s with invoked := true }) := by
    unfold schedule
    cases steps <;> simp [hs]
  have h2 : solveFinished e { s with invoked := true } = some { s with invoked := true } := by
    unfold solveFinished flush tell
    simp [hd1, hd2]
  refine ⟨(takeError { s with invoked := true }).1, er, ?_, ?_⟩
  · unfold solve
    dsimp only
    rw [if_neg (by rw [hinv]; decide), h1]
    simp only
    rw [h2]
    unfold takeError
    simp only [her]
  · cases er with
    | interrupted => exact absurd her hK.err
    | io => exact .inl ⟨rfl, (hK.io her hinv).2⟩
    | processor => exact .inr ⟨rfl, (hK.proc her hinv).1⟩

/-- An error that has happened makes `solve` panic or return an error, however the calls are mixed. -/
theorem C44.no_result {e : Env} {h : List (Op × Ret)} {s s' : Sess} {r : Ret} (hr : Ran e {} h s) {steps : List (List Ev)}
    (herr : (∃ n, n < s'.ios ∧ e.io n = false) ∨ 0 < s'.rejected) (hx : solve e steps s = some (some (s', r))) : ∃ er, r = .err er := by
  cases r with
  | err er => exact ⟨er, rfl⟩
  | answer b =>
    obtain ⟨h1, h2⟩ := C44.never_answers hr hx
    rcases herr with ⟨n, h3, h4⟩ | h3
    · rw [h1 n h3] at h4; cases h4
    · omega
  | unit =>
    obtain ⟨-, s1, s2, -, -, -, h3⟩ := solve_elim hx
    rcases h3 with ⟨er, -, h4⟩ | ⟨-, h4⟩
    · cases h4
    · split at h4 <;> cases h4

/-- Once an error other than an interruption was returned, every `solve` panics. -/
theorem C44.panics {e : Env} {h : List (Op × Ret)} {s : Sess} (hr : Ran e {} h s) {op : Op} {er : SErr}
    (hm : (op, .err er) ∈ h) (her : er ≠ .interrupted) (steps : List (List Ev)) :
    solve e steps s = none := by
  have := hr.errInv.inv.2 ⟨_, hm, er, rfl, her⟩
  unfold solve
  simp [this]

/-- Before that, `solve` does not panic because of an earlier error. -/
theorem C44.valid {e : Env} {h : List (Op × Ret)} {s : Sess} (hr : Ran e {} h s)
    (hno : ∀ x ∈ h, ∀ er, x.2 = .err er → er = .interrupted) : s.invalid = false := by
  cases hi : s.invalid with
  | false => rfl
  | true =>
    obtain ⟨x, hm, er, h1, h2⟩ := hr.errInv.inv.1 hi
    exact absurd (hno x hm er h1) h2

/-! Tests: the second I/O operation fails while a variable is named, before the first `solve`. -/

/-- No processors. -/
def plainChk : Checker.Env := ⟨false, fun _ => true, false, fun _ => true, id, fun _ => .refl _⟩

/-- A disk that is full after the first write. -/
def fullDisk : Env := { io := fun n => decide (n < 1), chk := plainChk }

/-- The calls before `solve`. -/
def fullDiskCalls : List Op :=
  [.writeProof .varisat,
   .call [.step (.userVarName 0 (some 0)), .step (.userVarName 1 (some 1)), .nonEmpty]]

example (steps : List (List Ev)) : ∃ h s s', h.map (·.1) = fullDiskCalls ∧ Ran fullDisk {} h s ∧
    solve fullDisk steps s = some (some (s', .err .io)) ∧ solve fullDisk steps s' = none := by
  obtain ⟨s, h, hr, hf⟩ := peek (e := fullDisk) (ops := fullDiskCalls)
    (f := fun s h => decide (h = fullDiskCalls.map (·, .unit) ∧ s.ios = 2 ∧ s.rejected = 0)) (by decide +kernel)
  obtain ⟨rfl, h2, h3⟩ := of_decide_eq_true hf
  have hu : ∀ x ∈ fullDiskCalls.map (·, Ret.unit), ∀ er, x.2 = .err er → er = .interrupted := by
    simp [fullDiskCalls]
  obtain ⟨s', er, hx, hk⟩ := C44.first_partial hr (by simp [SetupFirst, fullDiskCalls, Op.isSetup]) hu
    (.inl ⟨1, by rw [h2]; decide, by decide⟩) steps
  obtain ⟨rfl, -⟩ | ⟨-, hc⟩ := hk
  · exact ⟨_, s, s', rfl, hr, hx, C44.panics (hr.snoc (.solve steps) hx) (List.mem_append_right _ List.mem_cons_self)
      (by decide) steps⟩
  · omega

/-- The first `solve` after an error panics if `close_proof` was called before. -/
theorem C44.close_takes : ∃ h s, Ran fullDisk {} h s ∧ (∀ x ∈ h, ∀ steps, x.1 ≠ .solve steps) ∧ (.close, .err .io) ∈ h ∧
    ∀ steps, solve fullDisk steps s = none := by
  obtain ⟨s, h, hr, hf⟩ := peek (e := fullDisk) (ops := fullDiskCalls ++ [.close])
    (f := fun s h => decide (h = fullDiskCalls.map (·, .unit) ++ [(.close, .err .io)] ∧ s.invalid = true)) (by decide +kernel)
  obtain ⟨rfl, h2⟩ := of_decide_eq_true hf
  refine ⟨_, s, hr, by simp [fullDiskCalls], by simp, fun steps => ?_⟩
  unfold solve
  simp [h2]

/-- An answer is returned while the disk is not full. -/
example : ∃ h s s', Ran fullDisk {} h s ∧
    solve fullDisk [[.sat .sat]] s = some (some (s', .answer true)) := by
  obtain ⟨s, h, hr, hf⟩ := peek (e := fullDisk) (ops := [.selfCheck, .call [.clause [.mk' 0 true], .nonEmpty]])
    (f := fun s _ => match solve fullDisk [[.sat .sat]] s with
      | some (some (_, .answer true)) => true
      | _ => false) (by decide +kernel)
  split at hf
  · exact ⟨h, s, _, hr, ‹_›⟩
  · cases hf

end Varisat.Out
