import Verif.Proof.Solver.SimExec
import Verif.Proof.Solver.SolveLog
import Verif.Proof.Solver.Says
import Verif.Props.C11_ProofFormat
/-!
# The steps of the solver fit the proof format

All lists of a proof are at most as long as there are variables, except for the assumptions, which the caller chooses.
-/
namespace Varisat.Solver

open Api (Abs Hist)

variable {α : Type} [LinearOrder α] {s : St α} {h : Hist}

/-- Variables and user and solver names are numbered without gaps. -/
theorem Exec.sizes (x : Exec s h) : ∃ a, Abs.Run {} h a ∧ Sizes a.next s.vars := by
  obtain ⟨a, ids, h1, h2⟩ := x.inv
  exact ⟨a, h1, h2.n.sz⟩

/-- The steps with assumptions are those of the calls. -/
theorem Exec.asm_length (x : Exec s h) : ∀ c, .assumptions c ∈ s.log → ∃ ls r, (.assume ls, r) ∈ h ∧ c.length = ls.length := by
  induction x with
  | new e => intro c hc; cases hc
  | @call s s' h op r e x he hs ih =>
    have old : ∀ c, .assumptions c ∈ s.log → ∃ ls q, (.assume ls, q) ∈ h ++ [(op.call, r)] ∧ c.length = ls.length := by
      intro c hc
      obtain ⟨ls, q, h1, h2⟩ := ih c hc
      exact ⟨ls, q, by simp [h1], h2⟩
    have quiet : ∀ L, s'.log = s.log ++ L → (∀ c, .assumptions c ∉ L) → ∀ c, .assumptions c ∈ s'.log →
        ∃ ls q, (.assume ls, q) ∈ h ++ [(op.call, r)] ∧ c.length = ls.length := by
      intro L h1 h2 c hc
      rw [h1] at hc
      rcases List.mem_append.1 hc with hc | hc
      · exact old c hc
      · exact absurd hc (h2 c)
    have ready : ∀ {a d : Bool} {c : List Lit}, ¬ Readies a d (.assumptions c) := by
      rintro a d c ((⟨-, h⟩ | ⟨-, y, h⟩) | ⟨-, y, h⟩) <;> cases h
    by_cases h1 : ∃ n, op = .solve n
    · obtain ⟨n, rfl⟩ := h1
      obtain ⟨⟨t, b⟩, k1, k2⟩ := bind_inv (show (s.solve e n >>= fun q => pure (q.1, [if q.2 then 1 else 0])) = .ok (s', r) from hs)
      cases k2
      obtain ⟨l1, l2, -⟩ := St.solve_logs k1
      by_cases hu : s.sat = .unknown
      · have key := l2 hu
        unfold St.Answer at key
        cases hq : t.sat <;> rw [hq] at key <;> simp only at key
        · obtain ⟨L, m1, m2⟩ := key
          exact quiet L m1 fun c hc => (m2 _ hc).elim
        · obtain ⟨L, y, m1, m2, m3⟩ := key
          refine quiet (L ++ [y]) (by rw [m1, List.append_assoc]) fun c hc => ?_
          rcases List.mem_append.1 hc with hc | hc
          · exact (m2 _ hc).elim
          · obtain ⟨b, rfl⟩ := m3
            cases List.mem_singleton.1 hc
        · obtain ⟨L, m1, m2⟩ := key
          exact quiet L m1 fun c hc => (m2 _ hc).elim
        · obtain ⟨L, y, m1, m2, m3⟩ := key
          refine quiet (L ++ [y]) (by rw [m1, List.append_assoc]) fun c hc => ?_
          rcases List.mem_append.1 hc with hc | hc
          · exact (m2 _ hc).elim
          · obtain ⟨b, hs, rfl⟩ := m3
            cases List.mem_singleton.1 hc
      · exact quiet [] (by rw [(l1 hu).1, List.append_nil]) (fun _ h => by cases h)
    · by_cases h2 : ∃ ls, op = .assume ls
      · obtain ⟨ls, rfl⟩ := h2
        obtain ⟨t, k1, k2⟩ := bind_inv (show (s.assume e ls >>= fun q => pure (q, [])) = .ok (s', r) from hs)
        cases k2
        obtain ⟨u, c, ⟨L, h3, h4⟩, rfl, h5⟩ := St.assume_says (a := true) (d := true) k1
        intro d hd
        have hd : .assumptions d ∈ u.log ++ [.assumptions c] := hd
        rw [h3] at hd
        rcases List.mem_append.1 hd with hd | hd
        · rcases List.mem_append.1 hd with hd | hd
          · exact old d hd
          · exact absurd (h4 _ hd) ready
        · cases List.mem_singleton.1 hd
          exact ⟨ls, [], by simp [Op.call], h5⟩
      · obtain ⟨L, h3, h4⟩ := St.step_says (a := true) (d := true) hs (fun n hn => h1 ⟨n, hn⟩) (fun ls hl => h2 ⟨ls, hl⟩) (fun _ => rfl) (fun _ => rfl)
        exact quiet L h3 fun c hc => ready (h4 _ hc)

theorem Lit.code_lt {l : Lit} {n : Nat} (h : l.var < n) : l.code < 2 * n := by
  unfold Lit.var at h
  omega

theorem ShortLits.fits {n : Nat} (hn : n ≤ 2 ^ 31) {c : List Lit} (h : ShortLits n c) : c.length < 2 ^ 64 ∧ ∀ l ∈ c, l.code < 2 ^ 32 := by
  refine ⟨?_, fun l hl => ?_⟩
  · have := h.length_le; omega
  · have := Lit.code_lt (h.2 l hl); omega

/-- The steps of a proof can be written. -/
theorem Exec.fits (x : Exec s h) (hn : s.vars.data.length ≤ 2 ^ 31) (ha : ∀ ls r, (.assume ls, r) ∈ h → ls.length < 2 ^ 64) :
    ∀ st ∈ s.log, StepFits st := by
  obtain ⟨a0, -, hz⟩ := x.sizes
  obtain ⟨a, ids, -, -, -, -, V, k1, k2⟩ := x.tracked (by have := hz.slen; omega)
  have hv := k2.b.v.nvars
  intro st hst
  have hs := k1.short st hst
  have hn' : V.nvars ≤ 2 ^ 31 := by omega
  cases st with
  | solverVarName g v => exact ⟨by have := hs.1; omega, fun v hv => by have := hs.2 v hv; omega⟩
  | userVarName g v => exact ⟨by have := hs.1; omega, fun v hv => by have := hs.2 v hv; omega⟩
  | deleteVar v => have hs : v < V.nvars := hs; show v < _; omega
  | changeSamplingMode v b => have hs : v < V.nvars := hs; show v < _; omega
  | addClause c => exact ShortLits.fits hn' hs
  | atClause r c hs' => exact ⟨ShortLits.fits hn' hs.1, by have := hs.2.1; omega, hs.2.2⟩
  | unitClauses us =>
    refine ⟨?_, fun u hu => ⟨?_, (hs.2 u hu).2⟩⟩
    · have : us.length ≤ 2 * V.nvars := by
        simpa using ShortLits.length_le (n := V.nvars) (c := us.map (·.1)) ⟨hs.1, fun l hl => by
          obtain ⟨u, hu, rfl⟩ := List.mem_map.1 hl; exact (hs.2 u hu).1⟩
      omega
    · have := Lit.code_lt (hs.2 u hu).1; omega
  | deleteClause c p => exact ShortLits.fits hn' hs
  | changeHashBits b => exact hs.elim
  | model c => exact ShortLits.fits hn' hs
  | assumptions c =>
    obtain ⟨ls, r, h1, h2⟩ := x.asm_length c hst
    refine ⟨by rw [h2]; exact ha ls r h1, fun l hl => ?_⟩
    have := Lit.code_lt (hs l hl); omega
  | failedAssumptions c hs' => exact ⟨ShortLits.fits hn' hs.1, by have := hs.2.1; omega, hs.2.2⟩
  | end_ => exact hs.elim

end Varisat.Solver
