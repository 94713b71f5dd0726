import Verif.Proof.CheckerReorder
/-!
# Proofs the checker accepts, with and without the failed cores

A failed core is not used by later steps of a proof. So a proof is accepted without them, and with them if every core
was found with clean flags.
-/
namespace Varisat.Solver
open Checker (View Shown)

/-- The proof so far reports a failed core of one literal. -/
def Single (L : List ProofStep) : Prop := ∃ l hs, ProofStep.failedAssumptions [l] hs ∈ L

theorem Single.mono {L L' : List ProofStep} (h : L <+: L') (k : Single L) : Single L' := by
  obtain ⟨l, hs, k⟩ := k
  exact ⟨l, hs, h.subset k⟩

/-- No failed core follows one of a single literal. -/
def Fine (L : List ProofStep) : Prop :=
  ∀ core hs L1 L2, L = L1 ++ .failedAssumptions core hs :: L2 → ¬ Single L1

theorem Fine.of_prefix {L L' : List ProofStep} (h : Fine L') (hp : L <+: L') : Fine L := by
  obtain ⟨R, rfl⟩ := hp
  intro core hs L1 L2 he
  exact h core hs L1 (L2 ++ R) (by rw [he]; simp)

/-- Not a failed core. -/
def noFail : ProofStep → Bool
  | .failedAssumptions _ _ => false
  | _ => true

/-- A list of different literals of `n` variables. -/
def ShortLits (n : Nat) (c : List Lit) : Prop := c.Nodup ∧ ∀ l ∈ c, l.var < n

/-- A list of 64-bit hashes, at most one for each variable and one more. -/
def ShortHashes (n : Nat) (hs : List Nat) : Prop := hs.length ≤ n + 1 ∧ ∀ h ∈ hs, h < 2 ^ 64

/-- The sizes of a step of a solver with `n` variables. (The assumptions are a list given by the user.) -/
def Short (n : Nat) : ProofStep → Prop
  | .solverVarName g v => g < n ∧ ∀ w, v = some w → w < n
  | .userVarName g u => g < n ∧ ∀ w, u = some w → w < n
  | .deleteVar v => v < n
  | .changeSamplingMode v _ => v < n
  | .addClause c => ShortLits n c
  | .atClause _ c hs => ShortLits n c ∧ ShortHashes n hs
  | .unitClauses us => (us.map (·.1)).Nodup ∧ ∀ u ∈ us, u.1.var < n ∧ u.2 < 2 ^ 64
  | .deleteClause c _ => ShortLits n c
  | .changeHashBits _ => False
  | .model c => ShortLits n c
  | .assumptions c => ∀ l ∈ c, l.var < n
  | .failedAssumptions c hs => ShortLits n c ∧ ShortHashes n hs
  | .end_ => False

theorem ShortLits.mono {n m : Nat} {c : List Lit} (h : ShortLits n c) (k : n ≤ m) : ShortLits m c :=
  ⟨h.1, fun l hl => Nat.lt_of_lt_of_le (h.2 l hl) k⟩

theorem ShortHashes.mono {n m : Nat} {c : List Nat} (h : ShortHashes n c) (k : n ≤ m) : ShortHashes m c :=
  ⟨by have := h.1; omega, h.2⟩

theorem Short.mono {n m : Nat} {st : ProofStep} (h : Short n st) (k : n ≤ m) : Short m st := by
  cases st with
  | solverVarName g v => exact ⟨Nat.lt_of_lt_of_le h.1 k, fun w hw => Nat.lt_of_lt_of_le (h.2 w hw) k⟩
  | userVarName g v => exact ⟨Nat.lt_of_lt_of_le h.1 k, fun w hw => Nat.lt_of_lt_of_le (h.2 w hw) k⟩
  | deleteVar v => exact Nat.lt_of_lt_of_le h k
  | changeSamplingMode v b => exact Nat.lt_of_lt_of_le (show v < n from h) k
  | addClause c => exact ShortLits.mono h k
  | atClause r c hs => exact ⟨h.1.mono k, h.2.mono k⟩
  | unitClauses us => exact ⟨h.1, fun u hu => ⟨Nat.lt_of_lt_of_le (h.2 u hu).1 k, (h.2 u hu).2⟩⟩
  | deleteClause c p => exact ShortLits.mono h k
  | changeHashBits b => exact h
  | model c => exact ShortLits.mono h k
  | assumptions c => exact fun l hl => Nat.lt_of_lt_of_le (h l hl) k
  | failedAssumptions c hs => exact ⟨h.1.mono k, h.2.mono k⟩
  | end_ => exact h

theorem view_nvars (V : View) (st : ProofStep) : V.nvars ≤ (V.step st).nvars := by
  cases st with
  | addClause c =>
    show _ ≤ (if _ then V else V.store false (copyCanonical c).1).nvars
    split
    · exact Nat.le_refl _
    · exact Nat.le_of_eq (V.store_vars _ _).1.symm
  | atClause r c hs =>
    show _ ≤ (if r then _ else _ : View).nvars
    split
    · exact Nat.le_of_eq (V.store_vars _ _).1.symm
    · exact Nat.le_of_eq (V.store_vars r (copyCanonical c).1).1.symm
  | unitClauses us =>
    show V.nvars ≤ (us.foldl (fun V u => V.store false [u.1]) V).nvars
    induction us generalizing V with
    | nil => exact Nat.le_refl _
    | cons u us ih => exact Nat.le_trans (Nat.le_of_eq (V.store_vars false [u.1]).1.symm) (ih _)
  | userVarName g u =>
    cases u with
    | none =>
      show _ ≤ (match V.user g with | some u => _ | none => _ : View).nvars
      split <;> exact Nat.le_refl _
    | some u => exact Nat.le_max_left _ _
  | _ => exact Nat.le_refl _

/-- The checker accepts the proof without the failed cores, and with them if none follows one of a single literal. -/
structure Seen (log : List ProofStep) (V : View) : Prop where
  quiet : Shown (log.filter noFail) V
  full : Fine log → Shown log V
  short : ∀ st ∈ log, Short V.nvars st

theorem Seen.nil : Seen [] {} := ⟨.nil, fun _ => .nil, fun _ h => by cases h⟩

/-- A failed core. -/
theorem Seen.fail {log : List ProofStep} {V : View} (h : Seen log V) {core : List Lit} {hs : List Nat}
    (ha : ¬ Single log → V.Acc (.failedAssumptions core hs) ∧ V.Tr (.failedAssumptions core hs))
    (hs' : Short V.nvars (.failedAssumptions core hs)) :
    Seen (log ++ [.failedAssumptions core hs]) V := by
  refine ⟨by simpa [noFail] using h.quiet, fun hf => ?_, fun st hst => ?_⟩
  swap
  · rcases List.mem_append.1 hst with k | k
    · exact h.short st k
    · rw [List.mem_singleton.1 k]; exact hs'
  have := ha (hf core hs log [] rfl)
  exact (h.full (hf.of_prefix (List.prefix_append _ _))).snoc this.1 this.2

theorem Seen.snoc {log : List ProofStep} {V : View} {st : ProofStep} (h : Seen log V) (ha : V.Acc st)
    (hs : Short (V.step st).nvars st) (ht : V.Tr st := by trivial) :
    Seen (log ++ [st]) (V.step st) := by
  have hall : ∀ x ∈ log ++ [st], Short (V.step st).nvars x := by
    intro x hx
    rcases List.mem_append.1 hx with k | k
    · exact (h.short x k).mono (view_nvars V st)
    · rw [List.mem_singleton.1 k]; exact hs
  by_cases hst : noFail st = true
  · refine ⟨?_, fun hf => (h.full (hf.of_prefix (List.prefix_append _ _))).snoc ha ht, hall⟩
    rw [List.filter_append, List.filter_cons, if_pos hst]
    exact h.quiet.snoc ha ht
  · cases st <;> first | exact absurd rfl hst | exact h.fail (fun _ => ⟨ha, ht⟩) hs

end Varisat.Solver
