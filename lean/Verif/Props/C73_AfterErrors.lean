import Verif.Proof.Interleave
import Verif.Proof.Solver.SampleJoint
/-!
# C73: what the solver says is right also after errors of the proof output

Histories in which proof output and self checking may fail at any place (`Life`), with the search stopped where it is in the code:
before the round after the error.

- `C73.agrees`, `C73.joint`: up to the first error, the model that runs each search to its end (`Joint`) has the same states, files and
  results; for a `solve` that fails it has the same error and the same files.
- `C73.ends`, `C73.answer`, `C73.error`: `solve` returns, an answer is right, an error is one of the proof output, never `Interrupted`.
- `C73.model`, `C73.core`: whenever they are asked, also after an error.
- `C73.after`: after an error `solve` panics, all other calls do what they do without proof output.
-/
namespace Varisat.Solver
open Api

variable {α : Type} [LinearOrder α] {env : Out.Env} {f : Option Out.Format} {check : Bool} {s t : St α} {o o' : Out.Sess} {h : Hist} {e : Env α}

/-- Histories without errors are the same as in `Joint`. -/
theorem C73.joint (x : Joint env f check s o h) : Life env f check s o h := by
  induction x with
  | new e => exact .new e
  | @call s s' o o' h op r e x he hs ih =>
    by_cases hn : ∃ n, op = .solve n
    · obtain ⟨n, rfl⟩ := hn
      obtain ⟨b, hb, rfl⟩ := St.solveI_of_joint ih.settled hs
      exact .solved e ih he hb
    · exact .call e ih he (fun n q => hn ⟨n, q⟩) hs

/-- A `solve` that returns here also returns there, with the same files and the same error; without an error, with the same state and
answer. -/
theorem C73.agrees (x : Life env f check s o h) {n : Nat} {r : Out.Ret} (hs : s.solveI e env n o = .ok (t, o', r)) :
    ∃ N s' q er, (∀ m, N ≤ m → s.joint e env (.solve m) o = .ok (s', o', q, er)) ∧
      (er = none ∧ s' = t ∧ (∃ b, r = .answer b ∧ q = [if b then 1 else 0]) ∨ ∃ y, er = some y ∧ r = .err y) := by
  obtain ⟨a, ids, h1, h2⟩ := x.inv
  exact (h2.solveI x.settled hs).2.2.2

/-- `solve` ends, and the number of rounds allowed does not matter. -/
theorem C73.ends (x : Life env f check s o h) (e : Env α) :
    ∃ N, s.solveI e env N o ≠ .error .fuel ∧ ∀ n, N ≤ n → s.solveI e env n o = s.solveI e env N o := by
  obtain ⟨a, ids, h1, h2⟩ := x.inv
  obtain ⟨N, z, hz⟩ := h2.invoke.halts e
  have k := St.rounds_ends (env := env) (o := { o with invoked := true }) hz
  refine ⟨N, ?_, fun n hn => ?_⟩
  · unfold St.solveI
    split
    · exact nofun
    · split
      · rename_i q; exact fun y => k (by cases y; exact q)
      · split
        · exact nofun
        · split <;> exact nofun
  · unfold St.solveI
    rw [St.rounds_mono hn k]

/-- **C73**: an answer is right for the clauses and assumptions of the calls so far. -/
theorem C73.answer (x : Life env f check s o h) (hp : Plain h) {n : Nat} {b : Bool} (hs : s.solveI e env n o = .ok (t, o', .answer b)) :
    if b then ∃ τ, cnfSat τ (added h) ∧ allHold τ (assumed h) else UnsatUnder (added h) (assumed h) := by
  obtain ⟨a, ids, h1, h2⟩ := x.inv
  obtain ⟨k, -⟩ := (h2.solveI x.settled hs).2.2.1 b rfl
  have hr := PlainRun.of h1 hp
  cases b with
  | true =>
    cases k with
    | sat k =>
      obtain ⟨τ, k1, k2⟩ := k
      exact ⟨τ, (hr.iff τ).1 k1, by rw [← hr.assumptions]; exact k2⟩
  | false =>
    cases k with
    | unsat k => exact fun τ k1 k2 => k τ ((hr.iff τ).2 k1) (by rw [hr.assumptions]; exact k2)

/-- **C73**: an error is one of the proof output: a write or flush has failed, or a processor has returned an error. -/
theorem C73.error (x : Life env f check s o h) {n : Nat} {er : Out.SErr} (hs : s.solveI e env n o = .ok (t, o', .err er)) :
    er ≠ .interrupted ∧ ((∃ k, k < o'.ios ∧ env.io k = false) ∨ 0 < o'.rejected) ∧ o'.invalid = true := by
  obtain ⟨a, ids, h1, h2⟩ := x.inv
  obtain ⟨-, k2, k3⟩ := (h2.solveI x.settled hs).2.1 er rfl
  refine ⟨k3, ?_, k2⟩
  obtain ⟨g0, o1, o2, g1, g2, rfl, g3, g4⟩ := St.solveI_elim hs
  have hk := ((St.rounds_settled x.settled.invoke g1).solveFinished g2).kind
  have hi : o2.invalid = false := by
    rw [(Out.solveFinished_held (St.rounds_settled x.settled.invoke g1).kind.err g2).invalid, St.rounds_invalid x.settled.invoke g1]
    exact g0
  have hsame : (Out.takeError o2).1.ios = o2.ios ∧ (Out.takeError o2).1.rejected = o2.rejected := by
    unfold Out.takeError; split <;> exact ⟨rfl, rfl⟩
  rw [hsame.1, hsame.2]
  cases he : o2.error with
  | none =>
    have g4 := g4 he
    split at g4
    · cases g4; exact absurd rfl k3
    all_goals cases g4
  | some y =>
    cases g3 y he
    cases er with
    | interrupted => exact absurd rfl k3
    | io => exact .inl (hk.io he hi).2
    | processor => exact .inr (hk.proc he hi).1

/-- **C73**: the model, whenever `model` is called: between calls, after an answer or after an error. -/
theorem C73.model (x : Life env f check s o h) (hp : Plain h) {m : List Lit} (hm : s.modelLits = some (some m)) :
    (∀ c ∈ added h, ∃ l ∈ c, l ∈ m) ∧ (∀ l ∈ assumed h, l ∈ m) ∧ ∀ l ∈ m, l.neg ∉ m := by
  obtain ⟨a, ids, h1, h2⟩ := x.inv
  exact h2.model_plain h1 hp hm

/-- **C73**: there is a failed core only if the clauses and the assumptions are unsatisfiable. -/
theorem C73.core (x : Life env f check s o h) (hp : Plain h) {core : List Lit} (hc : s.failedCore = some core) :
    UnsatUnder (added h) (assumed h) := by
  obtain ⟨a, ids, h1, h2⟩ := x.inv
  have hr := PlainRun.of h1 hp
  have k : UnsatUnder a.clauses a.assumptions := by
    unfold St.failedCore at hc
    split at hc
    · rename_i hs; exact h2.under hs
    · rename_i hs; exact fun τ q _ => (h2.unsat hs).1 τ q
    · cases hc
  exact fun τ k1 k2 => k τ ((hr.iff τ).2 k1) (by rw [hr.assumptions]; exact k2)

/-- With hidden and observed variables: the clauses in the variables the user variables stood for. -/
theorem C73.named (x : Life env f check s o h) : ∃ a, Abs.Run {} h a ∧
    (∀ m, s.modelLits = some (some m) → ∃ τ, cnfSat τ a.clauses ∧ allHold τ a.assumptions ∧ ∀ l ∈ m, ∃ i, a.name l.var = some i ∧ τ i = !l.isNeg) ∧
    (∀ core, s.failedCore = some core → UnsatUnder a.clauses a.assumptions) ∧
    ∀ (e : Env α) (n : Nat) (t : St α) (o' : Out.Sess) (b : Bool), s.solveI e env n o = .ok (t, o', .answer b) →
      if b then ∃ τ, cnfSat τ a.clauses ∧ allHold τ a.assumptions else UnsatUnder a.clauses a.assumptions := by
  obtain ⟨a, ids, h1, h2⟩ := x.inv
  refine ⟨a, h1, fun m hm => (h2.model hm).1, fun core hc => ?_, fun e n t o' b hs => ?_⟩
  · unfold St.failedCore at hc
    split at hc
    · rename_i hs; exact h2.under hs
    · rename_i hs; exact fun τ q _ => (h2.unsat hs).1 τ q
    · cases hc
  · obtain ⟨k, -⟩ := (h2.solveI x.settled hs).2.2.1 b rfl
    cases b with
    | true => cases k with | sat k => exact k
    | false => cases k with | unsat k => exact k

/-- **C73**: after an error `solve` panics; the other calls do what they do without proof output, and the solver stays as it is in this
respect. -/
theorem C73.after (x : Life env f check s o h) (hi : o.invalid = true) (e : Env α) :
    (∀ n, s.solveI e env n o = .error .panic) ∧ (∃ o' r, Out.close env o = some (o', r) ∧ o'.invalid = true) ∧
    ∀ op, (∀ n, op ≠ .solve n) → match s.step e op with
      | .ok (t, r) => ∃ o', s.joint e env op o = .ok (t, o', r, none) ∧ o'.invalid = true
      | .error y => s.joint e env op o = .error y := by
  have hb := x.settled.blank hi
  refine ⟨fun n => by unfold St.solveI; rw [if_pos hi], ?_, fun op hn => ?_⟩
  · have hf : Out.flush env o = o := by unfold Out.flush; rw [hb.1]; rfl
    unfold Out.close Out.closeOutput
    rw [hb.addStep]
    simp only [hf, Out.takeError]
    cases o.error with
    | none => exact ⟨_, _, rfl, hi⟩
    | some er => refine ⟨_, _, rfl, ?_⟩; cases er <;> simp [Out.SErr.recoverable, hi]
  · unfold St.joint
    cases hs : s.step e op with
    | error y => rfl
    | ok q =>
      obtain ⟨t, r⟩ := q
      obtain ⟨o1, k1, -, -, k2⟩ := hb.runEvs (env := env) ((t.log.drop s.log.length).map toEv)
      have k1 : feed env (t.log.drop s.log.length) o = some o1 := k1
      refine ⟨o1, ?_, k2.trans hi⟩
      cases op with
      | solve n => exact absurd rfl (hn n)
      | _ => simp only [k1]

/-! ### Concrete cases -/

open Sample

/-- I/O operations fail from the `k`-th on. -/
def C73.failing (k : Nat) : Out.Env := { penv with io := fun n => n < k }

/-- Some calls, and then a `solve`: what it returns, the model, the failed core and whether the state is invalid. -/
def C73.look (k : Nat) (s : St Nat) (o : Out.Sess) : Option (Out.Ret × Option (Option (List Lit)) × Option (List Lit) × Bool) :=
  match s.solveI Sample.env (C73.failing k) 30 o with
  | .ok (t, o, r) => some (r, t.modelLits, t.failedCore, o.invalid)
  | .error _ => none

instance C73.lookEq : DecidableEq (Out.Ret × Option (Option (List Lit)) × Option (List Lit) × Bool) := inferInstance

theorem C73.looked {k : Nat} {fm : Option Out.Format} {ops : List Op} {rs : List (List Nat)} {r : Out.Ret} {m : Option (Option (List Lit))} {c : Option (List Lit)}
    {b : Bool} (hk : seeWith (C73.failing k) fm false (fun s o rs => (rs, C73.look k s o)) ops = some (rs, some (r, m, c, b))) :
    ∃ (s t : St Nat) (o o' : Out.Sess), Life (C73.failing k) fm false s o ((ops.map Op.call).zip rs) ∧
      s.solveI Sample.env (C73.failing k) 30 o = .ok (t, o', r) ∧ t.modelLits = m ∧ t.failedCore = c ∧ o'.invalid = b := by
  obtain ⟨s, o, rs', h1, h2⟩ := see_with hk
  obtain ⟨rfl, h3⟩ := Prod.mk.injEq _ _ _ _ ▸ h2
  unfold C73.look at h3
  split at h3
  · rename_i t o' r' hs
    cases h3
    exact ⟨s, t, o, o', C73.joint h1, hs, rfl, rfl, rfl⟩
  · cases h3

/-- After an error there may be a model: the disk was full when the model was written to the proof, and `model` returns it after `solve`
has returned the error. -/
theorem C73.model_after_error : ∃ (s : St Nat) (o : Out.Sess) (h : Hist) (m : List Lit), Life (C73.failing 8) (some .varisat) false s o h ∧ o.invalid = true ∧
    h = [(.addClause [⟨0⟩, ⟨2⟩], []), (.addClause [⟨1⟩, ⟨2⟩], []), (.addClause [⟨0⟩, ⟨3⟩], [])] ∧ s.modelLits = some (some m) ∧ m = [⟨0⟩, ⟨2⟩] := by
  obtain ⟨s, t, o, o', h1, h2, h3, h4, h5⟩ := C73.looked (k := 8) (fm := some .varisat) (ops := [cl [1, 2], cl [-1, 2], cl [1, -2]])
    (rs := [[], [], []]) (r := .err .io) (m := some (some [⟨0⟩, ⟨2⟩])) (c := none) (b := true) (by decide +kernel)
  exact ⟨t, o', _, _, .failed Sample.env h1 Sample.env_ok h2, h5, rfl, h3, rfl⟩

/-- The search stops at an error: an early one leaves neither model nor core. -/
example : ∃ (s t : St Nat) (o o' : Out.Sess) (h : Hist), Life (C73.failing 3) (some .varisat) false s o h ∧ Plain h ∧
    s.solveI Sample.env (C73.failing 3) 30 o = .ok (t, o', .err .io) ∧ t.modelLits = some none ∧ t.failedCore = none ∧ o'.invalid = true := by
  obtain ⟨s, t, o, o', h1, h2, h3, h4, h5⟩ := C73.looked (k := 3) (fm := some .varisat) (ops := [cl [1, 2], cl [-1, 2], cl [1, -2]])
    (rs := [[], [], []]) (r := .err .io) (m := some none) (c := none) (b := true) (by decide +kernel)
  refine ⟨s, t, o, o', _, h1, ?_, h2, h3, h4, h5⟩
  intro y hy
  simp [cl, Op.call] at hy
  rcases hy with q | q | q <;> rw [q] <;> exact ⟨fun u k => (by cases k), fun k => (by cases k)⟩

/-- The empty core of an unsatisfiable formula after an error, and an answer if nothing fails. -/
example : (∃ (s t : St Nat) (o o' : Out.Sess) (h : Hist), Life (C73.failing 6) (some .drat) false s o h ∧
      s.solveI Sample.env (C73.failing 6) 30 o = .ok (t, o', .err .io) ∧ t.failedCore = some []) ∧
    ∃ (s t : St Nat) (o o' : Out.Sess) (h : Hist), Life (C73.failing 8) (some .drat) false s o h ∧
      s.solveI Sample.env (C73.failing 8) 30 o = .ok (t, o', .answer false) ∧ t.failedCore = some [] := by
  constructor
  · obtain ⟨s, t, o, o', h1, h2, h3, h4, h5⟩ := C73.looked (k := 6) (fm := some .drat) (ops := [cl [1, 2], cl [-1, 2], cl [1, -2], cl [-1, -2]])
      (rs := [[], [], [], []]) (r := .err .io) (m := some none) (c := some []) (b := true) (by decide +kernel)
    exact ⟨s, t, o, o', _, h1, h2, h4⟩
  · obtain ⟨s, t, o, o', h1, h2, h3, h4, h5⟩ := C73.looked (k := 8) (fm := some .drat) (ops := [cl [1, 2], cl [-1, 2], cl [1, -2], cl [-1, -2]])
      (rs := [[], [], [], []]) (r := .answer false) (m := some none) (c := some []) (b := false) (by decide +kernel)
    exact ⟨s, t, o, o', _, h1, h2, h4⟩

end Varisat.Solver
