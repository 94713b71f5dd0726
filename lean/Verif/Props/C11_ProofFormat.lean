import Verif.Proof.ProofFormat
/-!
# C11, C12 (format part): the native binary proof format
-/
namespace Varisat
open Fmt

/-- Steps whose contents fit the machine types of `ProofStep` (`varisat-internal-proof/src/lib.rs`):
32-bit variables, literals and hash-bit counts, 64-bit hashes, slices shorter than 2^64. -/
def StepFits : ProofStep → Prop
  | .solverVarName g s => g < 2 ^ 32 ∧ ∀ v, s = some v → v < 2 ^ 32
  | .userVarName g u => g < 2 ^ 32 ∧ ∀ v, u = some v → v < 2 ^ 32
  | .deleteVar v => v < 2 ^ 32
  | .changeSamplingMode v _ => v < 2 ^ 32
  | .addClause c => c.length < 2 ^ 64 ∧ ∀ l ∈ c, l.code < 2 ^ 32
  | .atClause _ c hs => (c.length < 2 ^ 64 ∧ ∀ l ∈ c, l.code < 2 ^ 32) ∧
      hs.length < 2 ^ 64 ∧ ∀ h ∈ hs, h < 2 ^ 64
  | .unitClauses us => us.length < 2 ^ 64 ∧ ∀ u ∈ us, u.1.code < 2 ^ 32 ∧ u.2 < 2 ^ 64
  | .deleteClause c _ => c.length < 2 ^ 64 ∧ ∀ l ∈ c, l.code < 2 ^ 32
  | .changeHashBits b => b < 2 ^ 32
  | .model c => c.length < 2 ^ 64 ∧ ∀ l ∈ c, l.code < 2 ^ 32
  | .assumptions c => c.length < 2 ^ 64 ∧ ∀ l ∈ c, l.code < 2 ^ 32
  | .failedAssumptions c hs => (c.length < 2 ^ 64 ∧ ∀ l ∈ c, l.code < 2 ^ 32) ∧
      hs.length < 2 ^ 64 ∧ ∀ h ∈ hs, h < 2 ^ 64
  | .end_ => True

/-- Read `n` proof steps one after the other (specification of "reading back a sequence"). -/
def readSteps (fill : Nat → Nat) : Nat → Bytes → Except ParseErr (List ProofStep × Bytes)
  | 0, bs => .ok ([], bs)
  | n + 1, bs =>
    match parseStep fill bs with
    | .error e => .error e
    | .ok (s, rest) =>
      match readSteps fill n rest with
      | .error e => .error e
      | .ok (ss, rest) => .ok (s :: ss, rest)

/-- **C11**, one step: written and read back, consuming exactly the bytes written. -/
theorem C11.step_roundtrip (fill : Nat → Nat) (s : ProofStep) (hs : StepFits s) (rest : Bytes) :
    parseStep fill (writeStep s ++ rest) = .ok (s, rest) := by
  have lt : ∀ v : Nat, v < 2 ^ 32 → v < 2 ^ 64 := by intro v hv; omega
  have hcode : ∀ n : Nat, n < 18 → n < 2 ^ 64 := by intro v hv; omega
  cases s with
  | solverVarName g s =>
    obtain ⟨hg, hv⟩ := hs
    cases s with
    | none =>
      simp only [writeStep, parseStep, List.append_assoc]
      rw [bind_ok (rd_write fill _ (by decide) _)]
      simp only [parseBody, reduceIte, Nat.one_ne_zero]
      rw [bind_ok (rd_write fill _ (lt _ hg) _)]
      simp only [P.pure, varOfU64, Nat.mod_eq_of_lt hg]
    | some v =>
      have hv := hv v rfl
      simp only [writeStep, parseStep, List.append_assoc]
      rw [bind_ok (rd_write fill _ (by decide) _)]
      simp only [parseBody, reduceIte]
      rw [bind_ok (rd_write fill _ (lt _ hg) _), bind_ok (rd_write fill _ (lt _ hv) _)]
      simp only [P.pure, varOfU64, Nat.mod_eq_of_lt hg, Nat.mod_eq_of_lt hv]
  | userVarName g s =>
    obtain ⟨hg, hv⟩ := hs
    cases s with
    | none =>
      simp only [writeStep, parseStep, List.append_assoc]
      rw [bind_ok (rd_write fill _ (by decide) _)]
      simp only [parseBody]
      simp only [Nat.reduceEqDiff, reduceIte, OfNat.ofNat_ne_zero]
      rw [bind_ok (rd_write fill _ (lt _ hg) _)]
      simp only [P.pure, varOfU64, Nat.mod_eq_of_lt hg]
    | some v =>
      have hv := hv v rfl
      simp only [writeStep, parseStep, List.append_assoc]
      rw [bind_ok (rd_write fill _ (by decide) _)]
      simp only [parseBody]
      simp only [Nat.reduceEqDiff, reduceIte, OfNat.ofNat_ne_zero]
      rw [bind_ok (rd_write fill _ (lt _ hg) _), bind_ok (rd_write fill _ (lt _ hv) _)]
      simp only [P.pure, varOfU64, Nat.mod_eq_of_lt hg, Nat.mod_eq_of_lt hv]
  | deleteVar v =>
    simp only [writeStep, parseStep, List.append_assoc]
    rw [bind_ok (rd_write fill _ (by decide) _)]
    simp only [parseBody]
    simp only [Nat.reduceEqDiff, reduceIte, OfNat.ofNat_ne_zero]
    rw [bind_ok (rd_write fill _ (lt _ hs) _)]
    have hs : v < 2 ^ 32 := hs
    simp [P.pure, varOfU64]; omega
  | changeSamplingMode v b =>
    have hs : v < 2 ^ 32 := hs
    cases b <;> simp only [writeStep, parseStep, List.append_assoc, reduceIte, Bool.false_eq_true] <;>
    rw [bind_ok (rd_write fill _ (by decide) _)] <;>
    simp only [parseBody] <;>
    simp only [Nat.reduceEqDiff, reduceIte, OfNat.ofNat_ne_zero, or_true, true_or] <;>
    rw [bind_ok (rd_write fill _ (lt _ hs) _)] <;>
    (simp [P.pure, varOfU64]; omega)
  | addClause c =>
    simp only [writeStep, parseStep, List.append_assoc]
    rw [bind_ok (rd_write fill _ (by decide) _)]
    simp only [parseBody]
    simp only [Nat.reduceEqDiff, reduceIte, OfNat.ofNat_ne_zero, or_self]
    rw [bind_ok (readLiterals_write fill _ hs.1 hs.2 _)]
    simp [P.pure]
  | atClause r c h =>
    obtain ⟨h1, h2⟩ := hs
    cases r <;> simp only [writeStep, parseStep, List.append_assoc, reduceIte, Bool.false_eq_true] <;>
    rw [bind_ok (rd_write fill _ (by decide) _)] <;>
    simp only [parseBody] <;>
    simp only [Nat.reduceEqDiff, reduceIte, OfNat.ofNat_ne_zero, or_true, true_or, or_self] <;>
    rw [bind_ok (readLiterals_write fill _ h1.1 h1.2 _), bind_ok (readHashes_write fill _ h2.1 h2.2 _)] <;>
    simp [P.pure]
  | unitClauses us =>
    simp only [writeStep, parseStep, List.append_assoc]
    rw [bind_ok (rd_write fill _ (by decide) _)]
    simp only [parseBody]
    simp only [Nat.reduceEqDiff, reduceIte, OfNat.ofNat_ne_zero, or_self]
    rw [bind_ok (readUnits_write fill _ hs.1 hs.2 _)]
    simp [P.pure]
  | deleteClause c p =>
    cases p <;> simp only [writeStep, parseStep, List.append_assoc] <;>
    rw [bind_ok (rd_write fill _ (by decide) _)] <;>
    simp only [parseBody] <;>
    simp only [Nat.reduceEqDiff, reduceIte, OfNat.ofNat_ne_zero, or_true, true_or, or_self] <;>
    rw [bind_ok (readLiterals_write fill _ hs.1 hs.2 _)] <;>
    simp [P.pure]
  | changeHashBits b =>
    have hs : b < 2 ^ 32 := hs
    simp only [writeStep, parseStep, List.append_assoc]
    rw [bind_ok (rd_write fill _ (by decide) _)]
    simp only [parseBody]
    simp only [Nat.reduceEqDiff, reduceIte, OfNat.ofNat_ne_zero, or_self]
    rw [bind_ok (rd_write fill _ (lt _ hs) _)]
    simp only [P.pure, Nat.mod_eq_of_lt hs]
  | model c =>
    simp only [writeStep, parseStep, List.append_assoc]
    rw [bind_ok (rd_write fill _ (by decide) _)]
    simp only [parseBody]
    simp only [Nat.reduceEqDiff, reduceIte, OfNat.ofNat_ne_zero, or_self]
    rw [bind_ok (readLiterals_write fill _ hs.1 hs.2 _)]
    simp [P.pure]
  | assumptions c =>
    simp only [writeStep, parseStep, List.append_assoc]
    rw [bind_ok (rd_write fill _ (by decide) _)]
    simp only [parseBody]
    simp only [Nat.reduceEqDiff, reduceIte, OfNat.ofNat_ne_zero, or_self]
    rw [bind_ok (readLiterals_write fill _ hs.1 hs.2 _)]
    simp [P.pure]
  | failedAssumptions c h =>
    obtain ⟨h1, h2⟩ := hs
    simp only [writeStep, parseStep, List.append_assoc]
    rw [bind_ok (rd_write fill _ (by decide) _)]
    simp only [parseBody]
    simp only [Nat.reduceEqDiff, reduceIte, OfNat.ofNat_ne_zero, or_self]
    rw [bind_ok (readLiterals_write fill _ h1.1 h1.2 _), bind_ok (readHashes_write fill _ h2.1 h2.2 _)]
    simp [P.pure]
  | end_ =>
    simp only [writeStep, parseStep]
    rw [bind_ok (rd_write fill _ (by decide) _)]
    simp [parseBody, codeEnd, P.pure]

/-- **C11**: any sequence of steps written one after the other is read back as that sequence, for
every buffering schedule of the reader and whatever follows. -/
theorem C11.sequence_roundtrip (fill : Nat → Nat) (ss : List ProofStep) (hs : ∀ s ∈ ss, StepFits s)
    (rest : Bytes) :
    readSteps fill ss.length (ss.flatMap writeStep ++ rest) = .ok (ss, rest) := by
  induction ss with
  | nil => rfl
  | cons s ss ih =>
    simp only [List.length_cons, readSteps, List.flatMap_cons, List.append_assoc]
    rw [C11.step_roundtrip fill s (hs s (List.mem_cons_self ..))]
    simp only [ih (fun t ht => hs t (List.mem_cons_of_mem _ ht))]

/-- The hypotheses are met by a sequence with an empty and a non-empty list payload, the largest
literal and the largest hash. -/
example : ∀ s ∈ [ProofStep.atClause true [⟨2 ^ 32 - 1⟩, ⟨4⟩] [2 ^ 64 - 1, 0],
    .deleteClause [] .satisfied, .unitClauses [(⟨3⟩, 9)], .userVarName 5 (some 7), .end_], StepFits s := by
  intro s hs
  simp only [List.mem_cons, List.not_mem_nil, or_false] at hs
  rcases hs with rfl | rfl | rfl | rfl | rfl <;> simp [StepFits]

/-- Different step sequences have different encodings. -/
theorem C11.injective (ss ts : List ProofStep) (hs : ∀ s ∈ ss, StepFits s) (ht : ∀ s ∈ ts, StepFits s)
    (h : ss.flatMap writeStep = ts.flatMap writeStep) : ss = ts := by
  induction ss generalizing ts with
  | nil =>
    cases ts with
    | nil => rfl
    | cons t ts =>
      exfalso
      have h1 := C11.step_roundtrip id t (ht t (List.mem_cons_self ..)) (ts.flatMap writeStep)
      have h2 := Fmt.parseStep_progress h1
      rw [← List.flatMap_cons, ← h] at h2
      simp at h2
  | cons s ss ih =>
    cases ts with
    | nil =>
      exfalso
      have h1 := C11.step_roundtrip id s (hs s (List.mem_cons_self ..)) (ss.flatMap writeStep)
      have h2 := Fmt.parseStep_progress h1
      rw [← List.flatMap_cons, h] at h2
      simp at h2
    | cons t ts =>
      have h1 := C11.step_roundtrip id s (hs s (List.mem_cons_self ..)) (ss.flatMap writeStep)
      have h2 := C11.step_roundtrip id t (ht t (List.mem_cons_self ..)) (ts.flatMap writeStep)
      rw [← List.flatMap_cons] at h1 h2
      rw [h, h2] at h1
      simp only [Except.ok.injEq, Prod.mk.injEq] at h1
      rw [h1.1, ih ts (fun s hs' => hs s (List.mem_cons_of_mem _ hs'))
        (fun s hs' => ht s (List.mem_cons_of_mem _ hs')) h1.2.symm]

/-- **C12** (format part): a step cut at any byte position is reported as the end of the file, never
as a step. This holds for every byte string that parses, not only for written ones. -/
theorem C12.cut_step_is_eof (fill : Nat → Nat) (bs rest : Bytes) (s : ProofStep)
    (h : parseStep fill bs = .ok (s, rest)) (p q : Bytes) (hp : bs = p ++ q)
    (hq : rest.length < q.length) : parseStep fill p = .error .eof := by
  subst hp
  exact (Fmt.good_parseStep fill).eofy _ _ _ _ h hq

/-- A concrete case: `End` cut inside its 10 bytes. -/
example : parseStep id (writeStep .end_ ++ [1]) = .ok (.end_, [1]) ∧
    parseStep id ((writeStep .end_).take 9) = .error .eof :=
  ⟨C11.step_roundtrip _ .end_ trivial _,
    C12.cut_step_is_eof id _ [1] _ (C11.step_roundtrip _ .end_ trivial [1]) _
      ((writeStep .end_ ++ [1]).drop 9) (by decide +kernel) (by decide +kernel)⟩

end Varisat
