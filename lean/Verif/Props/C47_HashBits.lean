import Verif.Proof.ProofOut
import Verif.Props.C44_SolverErrors
/-!
# C47: hash-bit management keeps solver and checker in step

Histories of calls as in C44. What is written is compared with what was given by the reader's view of a
proof file (`InStep`, `told` in `Spec/ProofFile.lean`).

The English claim also says that the number of bits never shrinks and never exceeds 64. The first is
false (`C47.shrinks`; shrinking is announced, so nothing breaks). The second holds for every file, but
only because the solver panics when more than 2^32 clauses are counted (`C47.overflow`). Being in step is
false for a proof file started after the first call of `solve` (`C47.second_file`): its reader starts
with 64 bits, the solver goes on with the number it used before.
-/
namespace Varisat.Out

/-- Every hash in a proof file, finished or not, is cut to the number of bits its reader has been told. -/
theorem C47.in_step_partial {e : Env} {h : List (Op × Ret)} {s : Sess} (hr : Ran e {} h s)
    (hw : WriteFirst h) (hp : PlainOps h) {f : File} (hf : f ∈ s.files ++ s.proof.file)
    (hv : f.format = .varisat) : InStep 64 f.given f.written :=
  (((hr.bits hw hp).1.files) f hf hv).step

/-- A checker that was given some clauses and has accepted the file up to a step: it uses the number of
bits with which the hashes of that step were cut. -/
theorem C47.checker_partial {e : Env} {h : List (Op × Ret)} {s : Sess} (hr : Ran e {} h s)
    (hw : WriteFirst h) (hp : PlainOps h) {f : File} (hf : f ∈ s.files ++ s.proof.file)
    (hv : f.format = .varisat) {pre post : List ProofStep} {w : ProofStep}
    (hpre : f.written = pre ++ w :: post) (hnb : ∀ b, w ≠ .changeHashBits b)
    {ce : Checker.Env} {F : List (List Lit)} {c0 c : Checker.St}
    (hF : Checker.execs ce (F.map .add) {} = .ok () c0)
    (hc : Checker.execs ce (pre.map .step) c0 = .ok () c) :
    ∃ st ∈ f.given, w = st.cut c.hashBits := by
  have hI := C47.in_step_partial hr hw hp hf hv
  rw [hpre] at hI
  obtain ⟨st, h1, h2⟩ := hI.at (by cases w <;> first | rfl | exact absurd rfl (hnb _))
  refine ⟨st, List.mem_of_getElem? h1, ?_⟩
  rw [Checker.told_execs hc, Checker.told_added hF]
  exact h2

/-- The checker's hash of a clause is the full hash of the renamed clause, cut to its number of bits. -/
theorem C47.hash {bits : Nat} (h0 : 0 < bits) (h64 : bits ≤ 64) {names : Nat → Option Nat} {lits out : List Lit}
    (hn : lits.mapM (fun l => (names l.var).map fun v => Lit.mk' v (!l.isNeg)) = some out) :
    Checker.hashOf bits names lits = cutHash bits (clauseHash out) := by
  have key : ∀ (lits out : List Lit) (a : Nat),
      lits.mapM (fun l => (names l.var).map fun v => Lit.mk' v (!l.isNeg)) = some out →
      lits.foldl (fun h l => match names l.var with
        | some v => h ^^^ litHash (Lit.mk' v (!l.isNeg))
        | none => h ^^^ litCodeHash (l.code + maxVarCount * 2)) a =
      out.foldl (fun h l => h ^^^ litHash l) a := by
    intro lits
    induction lits with
    | nil => intro out a h; simp at h; subst h; rfl
    | cons l ls ih =>
      intro out a h
      simp only [List.mapM_cons, bind, pure, Option.bind_eq_some_iff] at h
      obtain ⟨m, hm, ms, hms, h⟩ := h
      injection h with h
      subst h
      obtain ⟨v, hv, rfl⟩ := Option.map_eq_some_iff.1 hm
      simp only [List.foldl_cons, hv]
      exact ih ms _ hms
  unfold Checker.hashOf cutHash clauseHash
  simp only
  have h1 := key lits out 0 hn
  refine (congrArg (· >>> ((2 ^ 32 + 64 - bits) % 64)) h1).trans ?_
  show _ >>> _ = _
  rw [Nat.shiftRight_eq_div_pow]
  congr 2
  omega

/-- The numbers of bits announced in a file are even and between 6 and 64. -/
theorem C47.range_partial {e : Env} {h : List (Op × Ret)} {s : Sess} (hr : Ran e {} h s)
    (hw : WriteFirst h) (hp : PlainOps h) {f : File} (hf : f ∈ s.files ++ s.proof.file)
    (hv : f.format = .varisat) {b : Nat} (hb : .changeHashBits b ∈ f.written) :
    6 ≤ b ∧ b ≤ 64 ∧ b % 2 = 0 :=
  (((hr.bits hw hp).1.files) f hf hv).range b hb

/-- There is room for the clauses: `b` bits are used for at most `2 ^ (b / 2)` clauses. -/
theorem C47.room {e : Env} {h : List (Op × Ret)} {s : Sess} (hr : Ran e {} h s)
    (hs : SetupFirst h) (hp : PlainOps h) (hv : s.proof.format = some .varisat) :
    netClauses s.proof.given ≤ 2 ^ (told 64 s.proof.written / 2) := by
  rw [(hr.bits hs.writeFirst hp).1.cur hv]
  exact ((hr.room hs).1 hv).2

/-! ### What is false -/

/-- A disk that is never full. -/
def goodDisk : Env := { io := fun _ => true, chk := plainChk }

/-- A clause of two literals. -/
def twoLits : List Lit := [.mk' 0 true, .mk' 1 true]

/-- The number of hash bits shrinks: 64 bits are used until the first call of `solve`, then 6 bits for a
small formula. -/
theorem C47.shrinks : ∃ h s, Ran goodDisk {} h s ∧ SetupFirst h ∧ PlainOps h ∧
    s.proof.written = [.userVarName 0 (some 0), .changeHashBits 6, .atClause true twoLits [1]] := by
  obtain ⟨s, h, hr, hf⟩ := peek (e := goodDisk)
    (ops := [.writeProof .varisat, .call [.step (.userVarName 0 (some 0)), .nonEmpty],
      .solve [[.step (.atClause true twoLits [2 ^ 58 + 5]), .sat .sat]]])
    (f := fun s h => decide (h = [(.writeProof .varisat, .unit),
        (.call [.step (.userVarName 0 (some 0)), .nonEmpty], .unit),
        (.solve [[.step (.atClause true twoLits [2 ^ 58 + 5]), .sat .sat]], .answer true)] ∧
      s.proof.written = [.userVarName 0 (some 0), .changeHashBits 6, .atClause true twoLits [1]]))
    (by decide +kernel)
  obtain ⟨rfl, h2⟩ := of_decide_eq_true hf
  exact ⟨_, s, hr, by simp [SetupFirst, Op.isSetup], by simp [PlainOps, Op.evs, Ev.Plain, ProofStep.isBits], h2⟩

/-- A proof file started after `solve` was called (on the still empty formula, as `write_proof`
demands) cannot be read: the solver goes on with 6 bits, its reader starts with 64. -/
theorem C47.second_file : ∃ h s, Ran goodDisk {} h s ∧ PlainOps h ∧ s.proof.format = some .varisat ∧
    ¬ InStep 64 s.proof.given s.proof.written := by
  obtain ⟨s, h, hr, hf⟩ := peek (e := goodDisk)
    (ops := [.writeProof .varisat, .solve [[.step (.model []), .sat .sat]], .writeProof .varisat,
      .call [.sat .unknown, .nonEmpty, .clause twoLits],
      .solve [[.step (.atClause true twoLits [2 ^ 58 + 5]), .sat .unsat]]])
    (f := fun s h => decide (h.map (·.1) = [.writeProof .varisat, .solve [[.step (.model []), .sat .sat]],
        .writeProof .varisat, .call [.sat .unknown, .nonEmpty, .clause twoLits],
        .solve [[.step (.atClause true twoLits [2 ^ 58 + 5]), .sat .unsat]]] ∧
      s.proof.format = some .varisat ∧
      s.proof.given = [.addClause twoLits, .atClause true twoLits [2 ^ 58 + 5]] ∧
      s.proof.written = [.addClause twoLits, .atClause true twoLits [1]])) (by decide +kernel)
  obtain ⟨h1, h2, h3, h4⟩ := of_decide_eq_true hf
  refine ⟨h, s, hr, ?_, h2, ?_⟩
  · intro x hm ev hev
    have : x.1 ∈ h.map (·.1) := List.mem_map_of_mem hm
    rw [h1] at this
    simp only [List.mem_cons, List.not_mem_nil, or_false] at this
    rcases this with h | h | h | h | h <;> rw [h] at hev <;>
      simp only [Op.evs, List.flatten_cons, List.flatten_nil, List.append_nil, List.mem_cons, List.not_mem_nil,
        or_false] at hev
    · rcases hev with rfl | rfl <;> first | rfl | trivial
    · rcases hev with rfl | rfl | rfl <;> trivial
    · rcases hev with rfl | rfl <;> first | rfl | trivial
  · rw [h3, h4]
    intro h
    have h := h.2.1
    simp [ProofStep.cut, cutHash] at h

/-- Loading `n` clauses before the first `solve` only counts them. -/
theorem runEvs_clauses (e : Env) (n : Nat) (s : Sess) (hi : s.invoked = false) (hc : s.proof.checker = none) :
    runEvs e (List.replicate n (.clause twoLits)) s =
      some { s with proof := { s.proof with count := s.proof.count + n } } := by
  induction n generalizing s with
  | zero => simp [runEvs]
  | succ n ih =>
    rw [List.replicate_succ]
    have h1 : Ev.exec e s (.clause twoLits) =
        some { s with proof := { s.proof with count := s.proof.count + 1 } } := by
      unfold Ev.exec addClause tell
      simp [hi, hc, twoLits]
    unfold runEvs
    simp only [h1]
    refine (ih { s with proof := { s.proof with count := s.proof.count + 1 } } hi hc).trans ?_
    have : s.proof.count + 1 + (n : Int) = s.proof.count + ((n + 1 : Nat) : Int) := by omega
    simp only [this]

/-- With more than 2^32 loaded clauses (tautologies and duplicates are counted, too) the next step that
is written panics: 66 bits would be used. -/
theorem C47.overflow (n : Nat) (hn : 2 ^ 32 < n) : ∃ h s, Ran goodDisk {} h s ∧ SetupFirst h ∧
    h.map (·.1) = [.writeProof .varisat, .call (List.replicate n (.clause twoLits))] ∧
    Ev.exec goodDisk s (.step (.userVarName 0 (some 0))) = none := by
  have hrun := runEvs_clauses goodDisk n { proof := { format := some .varisat } } rfl rfl
  refine ⟨[(.writeProof .varisat, .unit), (.call (List.replicate n (.clause twoLits)), .unit)],
    { proof := { format := some .varisat, count := 0 + n } },
    .snoc (h := [_]) _ (.snoc (h := []) (s' := {}) (s'' := { proof := { format := some .varisat } }) _ .nil rfl) ?_,
    by simp [SetupFirst, Op.isSetup], rfl, ?_⟩
  · exact congrArg (Option.map fun s => some (s, Ret.unit)) hrun
  · have hg := grow_size (0 + n) 64
    have hbig : grow (0 + n) 64 > 64 := by
      have hle := grow_le (0 + n) 64
      rcases Nat.lt_or_ge 64 (grow (0 + n) 64) with h | h
      · exact h
      · have he : grow (0 + n) 64 = 64 := by omega
        rw [he] at hg
        have : (2 : Int) ^ (64 / 2) = 4294967296 := by decide
        omega
    have hr : rehashed false (0 + n) 64 = true := by
      unfold rehashed
      have : (2 : Int) ^ (64 / 2) = 4294967296 := by decide
      simp only [Bool.or_eq_true, decide_eq_true_eq]
      left; omega
    unfold Ev.exec addStep writeOut writeVarisat
    simp only [Option.isSome_none, Bool.false_eq_true, if_false, delta, Int.add_zero, hr, if_true]
    have hb : nextBits false (0 + n) 64 = grow (0 + n) 64 := rfl
    simp only [hb, put, goodDisk, if_true, Bool.not_true, Bool.false_eq_true, if_false, hbig]

/-! Test: `C47.in_step_partial` and `C47.room` apply to the run of `C47.shrinks`. -/
example : ∃ s : Sess, s.proof.written = [.userVarName 0 (some 0), .changeHashBits 6, .atClause true twoLits [1]] ∧
    InStep 64 s.proof.given s.proof.written ∧ netClauses s.proof.given ≤ 2 ^ 3 := by
  obtain ⟨s, h, hr, hf⟩ := peek (e := goodDisk)
    (ops := [.writeProof .varisat, .call [.step (.userVarName 0 (some 0)), .nonEmpty],
      .solve [[.step (.atClause true twoLits [2 ^ 58 + 5]), .sat .sat]]])
    (f := fun s h => decide (h = [(.writeProof .varisat, .unit),
        (.call [.step (.userVarName 0 (some 0)), .nonEmpty], .unit),
        (.solve [[.step (.atClause true twoLits [2 ^ 58 + 5]), .sat .sat]], .answer true)] ∧
      s.proof.format = some .varisat ∧
      s.proof.written = [.userVarName 0 (some 0), .changeHashBits 6, .atClause true twoLits [1]]))
    (by decide +kernel)
  obtain ⟨rfl, h1, h2⟩ := of_decide_eq_true hf
  have hs : SetupFirst [(.writeProof .varisat, .unit),
        (.call [.step (.userVarName 0 (some 0)), .nonEmpty], .unit),
        (.solve [[.step (.atClause true twoLits [2 ^ 58 + 5]), .sat .sat]], .answer true)] := by
    simp [SetupFirst, Op.isSetup]
  have hp : PlainOps [(.writeProof .varisat, .unit),
        (.call [.step (.userVarName 0 (some 0)), .nonEmpty], .unit),
        (.solve [[.step (.atClause true twoLits [2 ^ 58 + 5]), .sat .sat]], .answer true)] := by
    simp [PlainOps, Op.evs, Ev.Plain, ProofStep.isBits]
  refine ⟨s, h2, C47.in_step_partial hr hs.writeFirst hp (f := ⟨.varisat, _, _⟩)
    (List.mem_append_right _ (by unfold Proof.file; rw [h1]; exact List.mem_cons_self)) rfl, ?_⟩
  have := C47.room hr hs hp h1
  rw [h2] at this
  exact this

end Varisat.Out
