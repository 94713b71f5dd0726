import Verif.Proof.Solver.TermFirst
import Verif.Props.C45_Incremental
/-!
# C54: `solve` ends, and so decides

The number after `.solve` bounds the calls of `schedule_step`; without enough of them the model has no
result. The theorems say that some number is always enough and that more change nothing.
-/
namespace Varisat.C54

open Solver Api

variable {α : Type} [LinearOrder α]

/-- After any calls `solve` ends. The counters of conflicts and restarts are unbounded in the model. -/
theorem ends {s : St α} {h : Hist} (x : Exec s h) (e : Env α) :
    ∃ N s' r, ∀ n, N ≤ n → s.step e (.solve n) = .ok (s', r) := x.halts e

/-- `solve` returns `true` if and only if an assignment satisfies the clauses added so far and the current
assumptions. -/
theorem decides {s : St α} {h : Hist} (x : Exec s h) (hp : Plain h) {e : Env α} (he : e.Ok) :
    ∃ N s' r, (∀ n, N ≤ n → s.step e (.solve n) = .ok (s', r)) ∧ (r = [0] ∨ r = [1]) ∧
      (r = [1] ↔ ∃ τ, cnfSat τ (added h) ∧ allHold τ (assumed h)) := by
  obtain ⟨N, s', r, k⟩ := x.halts e
  have x' : Exec s' (h ++ (.solve, r) :: []) := .call (op := .solve N) e x he (k N (Nat.le_refl _))
  refine ⟨N, s', r, k, ?_⟩
  rcases C45.every_answer x' hp with ⟨rfl, q⟩ | ⟨rfl, q⟩
  · exact ⟨.inr rfl, by simpa using q⟩
  · refine ⟨.inl rfl, by simp, ?_⟩
    rintro ⟨τ, q1, q2⟩
    exact absurd q2 (q τ q1)

/-- The same with hidden and observed variables. -/
theorem decides_named {s : St α} {h : Hist} (x : Exec s h) {e : Env α} (he : e.Ok) :
    ∃ a, Abs.Run {} h a ∧ ∃ N s' r, (∀ n, N ≤ n → s.step e (.solve n) = .ok (s', r)) ∧ (r = [0] ∨ r = [1]) ∧
      (r = [1] ↔ ∃ τ, cnfSat τ a.clauses ∧ allHold τ a.assumptions) := by
  obtain ⟨N, s', r, k⟩ := x.halts e
  have x' : Exec s' (h ++ (.solve, r) :: []) := .call (op := .solve N) e x he (k N (Nat.le_refl _))
  obtain ⟨a, ra, q⟩ := C45.every_answer_named x'
  refine ⟨a, ra, N, s', r, k, ?_⟩
  rcases q with ⟨rfl, q⟩ | ⟨rfl, q⟩
  · exact ⟨.inr rfl, by simpa using q⟩
  · refine ⟨.inl rfl, by simp, ?_⟩
    rintro ⟨τ, q1, q2⟩
    exact absurd q2 (q τ q1)

/-- All user variables of a call and its result are below `m`. -/
def Below (m : Nat) : Call × List Nat → Prop
  | (.addClause c, _) => ∀ l ∈ c, l.var < m
  | (.assume ls, _) => ∀ l ∈ ls, l.var < m
  | (.newVar, r) => ∀ u ∈ r, u < m
  | (.witnessVar u, _) => u < m
  | (.sampleVar u, _) => u < m
  | _ => True

theorem ensure_le {a : Abs} (h : Plain' a) {m u : Nat} (ha : a.len ≤ m) (hu : u < m) : (a.ensure u).len ≤ m := by
  unfold Abs.ensure
  obtain ⟨h1, h2⟩ := h.creates (u - a.len)
  obtain ⟨_, k2⟩ := h1.create (u := u) (by omega)
  omega

theorem ensureLits_le {m : Nat} : ∀ (ls : List Lit) {a : Abs}, Plain' a → a.len ≤ m → (∀ l ∈ ls, l.var < m) →
    (a.ensureLits ls).len ≤ m
  | [], _, _, ha, _ => ha
  | l :: ls, _, h, ha, hl =>
    ensureLits_le ls (h.ensure l.var).1 (ensure_le h ha (hl l (by simp))) (fun x hx => hl x (by simp [hx]))

theorem next_le {h : Hist} {a : Abs} (r : Abs.Run {} h a) (hp : Plain h) {m : Nat} (hm : ∀ y ∈ h, Below m y) : a.next ≤ m := by
  rw [(PlainRun.of r hp).p.next]
  induction r with
  | nil => exact Nat.zero_le _
  | @snoc b c hs o r' r hst ih =>
    have hp' : Plain hs := fun y hy => hp y (by simp [hy])
    have ih := ih hp' (fun y hy => hm y (by simp [hy]))
    have hb := (PlainRun.of r hp').p
    have ho := hm (o, r') (by simp)
    have hpo := hp (o, r') (by simp)
    cases hst with
    | addClause c => exact ensureLits_le c hb ih ho
    | ignored c _ => exact ih
    | newVar u h1 h2 =>
      have := (hb.create h2).2
      have hu : u < m := ho u (by simp)
      omega
    | assume ls => exact ensureLits_le ls hb ih ho
    | sat _ => exact ih
    | unsat _ => exact ih
    | witnessVar u => exact ensure_le hb ih ho
    | sampleVar u => exact ensure_le hb ih ho
    | hideVar u => exact absurd rfl (hpo.1 u)
    | observe => exact absurd rfl hpo.2

/-- The first `solve`, over `m < 64` variables and with restart scale `c`, ends after at most
`(c * m + 1) * 2 ^ m + 2` steps. -/
theorem first {s : St α} {h : Hist} (x : Exec s h) (hn : ∀ y ∈ h, y.1 ≠ .solve) (hp : Plain h) {m : Nat} (hm : ∀ y ∈ h, Below m y)
    (h64 : m < 64) (e : Env α) : ∃ s' r, s.step e (.solve ((e.lubyScale * m + 1) * 2 ^ m + 2)) = .ok (s', r) := by
  obtain ⟨a, ra, k⟩ := x.first_bound hn e
  have hle := next_le ra hp hm
  refine k (by omega) _ ?_
  have := Nat.mul_le_mul (Nat.succ_le_succ (Nat.mul_le_mul_left e.lubyScale hle)) (Nat.pow_le_pow_right (n := 2) (by decide) hle)
  simp only [Nat.succ_eq_add_one] at this
  omega

/-- In the first search nothing overflows for up to 50 variables with the default scale 128. -/
theorem first_fits {m : Nat} (hm : m ≤ 50) : (128 * m + 1) * 2 ^ m + 2 < 2 ^ 64 := by
  have h1 : 2 ^ m ≤ 2 ^ 50 := Nat.pow_le_pow_right (by decide) hm
  have h2 : (128 * m + 1) * 2 ^ m ≤ (128 * 50 + 1) * 2 ^ 50 := Nat.mul_le_mul (by omega) h1
  have h3 : (128 * 50 + 1) * 2 ^ 50 + 2 < 2 ^ 64 := by decide
  omega

/-! ### Test cases -/

open Sample

/-- A history of five calls over three variables without `solve`, with a formula that is satisfiable but
not under the assumptions. One step is not enough. -/
example : ∃ (s : St Nat) (h : Hist), Exec s h ∧ h.length = 5 ∧ Plain h ∧ (∀ y ∈ h, y.1 ≠ .solve) ∧ (∀ y ∈ h, Below 3 y) ∧
    (s.step env (.solve 1)).isOk = false ∧ (s.step env (.solve 30)).isOk = true ∧
    (∃ τ, cnfSat τ (added h)) ∧ ¬ ∃ τ, cnfSat τ (added h) ∧ allHold τ (assumed h) := by
  obtain ⟨s, rs, h1, h2⟩ := see_exec (f := fun s rs => (rs, (s.step env (.solve 1)).isOk, (s.step env (.solve 30)).isOk))
    (ops := [cl [1, 2], cl [1, -2], cl [-1, 3], cl [-1, -2, 3], asm [-3]]) (x := ([[], [], [], [], []], false, true)) (by decide +kernel)
  obtain ⟨rfl, h3, h4⟩ := (show rs = _ ∧ _ ∧ _ by simpa using h2)
  refine ⟨s, _, h1, rfl, ?_, ?_, ?_, h3, h4, ⟨fun _ => true, ?_⟩, ?_⟩
  · simp [Plain, cl, asm, Op.call]
  · simp [cl, asm, Op.call]
  · simp [cl, asm, Op.call, Below]
    decide
  · intro c hc
    have hc : c ∈ [[⟨0⟩, ⟨2⟩], [⟨0⟩, ⟨3⟩], [⟨1⟩, ⟨4⟩], [⟨1⟩, ⟨3⟩, (⟨4⟩ : Lit)]] := hc
    simp only [List.mem_cons, List.not_mem_nil, or_false] at hc
    rcases hc with rfl | rfl | rfl | rfl
    · exact ⟨⟨0⟩, by simp, by decide⟩
    · exact ⟨⟨0⟩, by simp, by decide⟩
    · exact ⟨⟨4⟩, by simp, by decide⟩
    · exact ⟨⟨4⟩, by simp, by decide⟩
  · rintro ⟨τ, q1, q2⟩
    have h5 := q1 [⟨0⟩, ⟨2⟩] (by decide)
    have h6 := q1 [⟨0⟩, ⟨3⟩] (by decide)
    have h7 := q1 [⟨1⟩, ⟨4⟩] (by decide)
    have h8 := q2 ⟨5⟩ (by decide)
    simp [clauseSat, Lit.holds, Lit.var, Lit.isNeg] at h5 h6 h7 h8
    cases h : τ 0 <;> cases h' : τ 1 <;> cases h'' : τ 2 <;> simp_all

end Varisat.C54
