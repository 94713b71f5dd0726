import Verif.Proof.Solver.Fits
import Verif.Proof.Solver.Sample
import Verif.Spec.ProofSize
import Verif.Props.C54_Termination
/-!
# C67: the steps of a proof are small

Every step that the solver passes to the proof is about the variables that were created by the calls so far, has no
literal twice and at most one reason per variable and one more. Only the lists given to
`assume` are as long as the caller wants. As a consequence the steps can be written in the native format and read back.

`a.next` is the number of variables created so far (`Abs.Run {} h a` says that `h` leads to `a`); hidden variables count,
and so do variables that a later call refers to by another name.
-/
namespace Varisat.Solver
open Api (Hist Abs Plain)
open Fmt (writeStep)

variable {α : Type} [LinearOrder α] {s : St α} {h : Hist}

theorem Short.within {n : Nat} {st : ProofStep} (h : Short n st) : st.Within n := by
  have lits : ∀ {c : List Lit}, ShortLits n c → ∀ v ∈ c.map Lit.var, v < n := fun k v hv => by
    obtain ⟨l, hl, rfl⟩ := List.mem_map.1 hv
    exact k.2 l hl
  cases st with
  | solverVarName g v =>
    refine ⟨fun w hw => ?_, List.nodup_nil, Nat.zero_le _⟩
    rcases List.mem_cons.1 hw with rfl | hw
    · exact h.1
    · exact h.2 w (by simpa using hw)
  | userVarName g v =>
    refine ⟨fun w hw => ?_, List.nodup_nil, Nat.zero_le _⟩
    rcases List.mem_cons.1 hw with rfl | hw
    · exact h.1
    · exact h.2 w (by simpa using hw)
  | deleteVar v => exact ⟨fun w hw => by cases List.mem_singleton.1 hw; exact h, List.nodup_nil, Nat.zero_le _⟩
  | changeSamplingMode v b => exact ⟨fun w hw => by cases List.mem_singleton.1 hw; exact h, List.nodup_nil, Nat.zero_le _⟩
  | addClause c => exact ⟨lits h, h.1, Nat.zero_le _⟩
  | atClause r c hs => exact ⟨lits h.1, h.1.1, h.2.1⟩
  | unitClauses us =>
    refine ⟨fun w hw => ?_, h.1, Nat.zero_le _⟩
    obtain ⟨u, hu, rfl⟩ := List.mem_map.1 hw
    exact (h.2 u hu).1
  | deleteClause c p => exact ⟨lits h, h.1, Nat.zero_le _⟩
  | changeHashBits b => exact h.elim
  | model c => exact ⟨lits h, h.1, Nat.zero_le _⟩
  | assumptions c =>
    refine ⟨fun w hw => ?_, List.nodup_nil, Nat.zero_le _⟩
    obtain ⟨l, hl, rfl⟩ := List.mem_map.1 hw
    exact h l hl
  | failedAssumptions c hs => exact ⟨lits h.1, h.1.1, h.2.1⟩
  | end_ => exact h.elim

/-- **C67**: every step is about the variables created so far. The numbers of variables have to fit into 32 bits. -/
theorem C67.within (x : Exec s h) (hn : ∀ a, Abs.Run {} h a → a.next < 2 ^ 32) :
    ∃ a, Abs.Run {} h a ∧ ∀ st ∈ s.log, st.Within a.next := by
  obtain ⟨a, h1, h2⟩ := x.sizes
  have := hn a h1
  have := h2.slen
  have := h2.dlen
  obtain ⟨_, ids, -, -, -, -, V, k1, k2⟩ := x.tracked (by omega)
  have hv := k2.b.v.nvars
  exact ⟨a, h1, fun st hst => ((k1.short st hst).mono (by omega)).within⟩

/-- **C67**, without hidden variables: if the calls use variables below `m` only, so do all steps. -/
theorem C67.below (x : Exec s h) (hp : Plain h) {m : Nat} (hm : ∀ y ∈ h, C54.Below m y) (h32 : m < 2 ^ 32) :
    ∀ st ∈ s.log, st.Within m := by
  obtain ⟨a, h1, h2⟩ := C67.within x fun a ra => Nat.lt_of_le_of_lt (C54.next_le ra hp hm) h32
  have hle := C54.next_le h1 hp hm
  intro st hst
  obtain ⟨k1, k2, k3⟩ := h2 st hst
  exact ⟨fun v hv => Nat.lt_of_lt_of_le (k1 v hv) hle, k2, by omega⟩

/-- **C67**: all steps of a proof are read back as they were written. -/
theorem C67.readable (x : Exec s h) (hn : ∀ a, Abs.Run {} h a → a.next ≤ 2 ^ 31)
    (ha : ∀ ls r, (.assume ls, r) ∈ h → ls.length < 2 ^ 64) (fill : Nat → Nat) (rest : Bytes) :
    readSteps fill s.log.length (s.log.flatMap writeStep ++ rest) = .ok (s.log, rest) := by
  obtain ⟨a, h1, h2⟩ := x.sizes
  exact C11.sequence_roundtrip fill _ (x.fits (Nat.le_trans h2.dlen (hn a h1)) ha) rest

/-! ### Concrete cases -/

open Sample

/-- A session over three variables with learned clauses and a failed core. -/
example : ∃ (s : St Nat) (h : Hist), Exec s h ∧ Plain h ∧ (∀ y ∈ h, C54.Below 3 y) ∧
    (s.log.any fun st => 0 < st.lits.length && 0 < st.reasons) = true ∧ (∀ ls r, (.assume ls, r) ∈ h → ls.length < 2 ^ 64) := by
  obtain ⟨s, rs, h1, h2⟩ := see_exec (f := fun s rs => (rs, s.log.any fun st => 0 < st.lits.length && 0 < st.reasons))
    (ops := [cl [1, 2], cl [1, -2], cl [-1, 3], cl [-1, -2, 3], asm [-3], .solve 30]) (x := ([[], [], [], [], [], [0]], true)) (by decide +kernel)
  obtain ⟨rfl, h3⟩ := (show rs = _ ∧ _ by simpa using h2)
  refine ⟨s, _, h1, ?_, ?_, by simpa using h3, ?_⟩
  · simp [Plain, cl, asm, Op.call]
  · simp [cl, asm, Op.call, C54.Below]
    decide
  · intro ls r hl
    simp [cl, asm, Op.call] at hl
    rw [hl.1]; decide

end Varisat.Solver
