import Verif.Proof.CheckerKeep
import Verif.Proof.CheckerComplete
import Verif.Proof.CheckerCount
import Verif.Proof.CheckerReplay
import Verif.Model.ProofOut
/-!
The checker as seen from outside, as an abstract machine: which clauses it holds how often, which unit
clauses it knows, and the variables. `Sees K V` relates a state to its view, `View.Acc` says when a step
is accepted and `View.step` what it does.
-/
namespace Varisat.Checker

structure View where
  cnt : Bool → List Lit → Nat := fun _ _ => 0
  unit : Nat → Option Bool := fun _ => none
  unsat : Bool := false
  nvars : Nat := 0
  user : Nat → Option Nat := fun _ => none
  used : Nat → Bool := fun _ => false
  mode : Nat → SamplingMode := fun _ => .sample
  names : Nat → Option Nat := fun _ => none
  asm : List Lit := []
  prev : Option (List Lit) := none

namespace View

/-- The literal is a known unit clause. -/
def True (V : View) (l : Lit) : Prop := V.unit l.var = some (!l.isNeg)

/-- A clause is held. -/
def Has (V : View) (k : List Lit) : Prop := LitsOk k ∧ ∃ red, 0 < V.cnt red k

/-- The variables of a clause have names in the solver. -/
def Named (V : View) (k : List Lit) : Prop := ∀ l ∈ k, (V.names l.var).isSome

/-- Storing a clause. -/
def store (V : View) (red : Bool) (k : List Lit) : View :=
  match k with
  | [] => { V with unsat := true }
  | [l] =>
    match V.unit l.var with
    | some b => if b = !l.isNeg then V else { V with unsat := true }
    | none => { V with unit := upd V.unit l.var (some (!l.isNeg)) }
  | k => { V with cnt := fun r c => V.cnt r c + if k = c ∧ r = red then 1 else 0 }

def step (V : View) : ProofStep → View
  | .addClause c => if V.unsat = true ∨ (copyCanonical c).2 = true then V else V.store false (copyCanonical c).1
  | .atClause red c _ =>
    if red then V.store red (copyCanonical c).1
    else { V.store red (copyCanonical c).1 with prev := some (copyCanonical c).1 }
  | .unitClauses us => us.foldl (fun V u => V.store false [u.1]) V
  | .deleteClause c p => { V with
      cnt := fun r k => V.cnt r k - if (copyCanonical c).1 = k ∧ r = decide (p = .redundant) then 1 else 0
      prev := none }
  | .deleteVar v => { V with
      unit := upd V.unit v none
      user := upd V.user v none
      mode := upd V.mode v .sample }
  | .changeSamplingMode v b => { V with mode := upd V.mode v (if b then .sample else .witness) }
  | .userVarName g (some u) => { V with
      nvars := max V.nvars (g + 1)
      user := upd V.user g (some u)
      used := upd V.used u true }
  | .userVarName g none =>
    match V.user g with
    | some u => { V with
        used := upd V.used u false
        user := upd V.user g none
        mode := upd V.mode g .hide }
    | none => V
  | .solverVarName g s => { V with names := upd V.names g s }
  | .assumptions a => { V with asm := (copyCanonical a).1 }
  | _ => V

/-- The hashes are those of held clauses, which refute the literals known. -/
def Hints (V : View) (known : Lit → Prop) (hs : List Nat) : Prop :=
  ∃ cls, hs = cls.map (hashOf 64 V.names) ∧ (∀ d ∈ cls, V.Named d ∧ V.Has d) ∧
    UnitChain Lit.neg (fun l => known l ∨ V.True l) cls

/-- Unit clauses one after the other, each the last literal of a held clause. -/
def AccUnits (V : View) : List (Lit × Nat) → Prop
  | [] => _root_.True
  | (l, h) :: us => (∃ d, h = hashOf 64 V.names d ∧ V.Named d ∧ V.Has d ∧ ∀ m ∈ d, m = l ∨ V.True m.neg) ∧
      AccUnits (V.store false [l]) us

/-- The step is accepted. -/
def Acc (V : View) : ProofStep → Prop
  | .addClause c => V.unsat = true ∨ (copyCanonical c).2 = true ∨ ∀ l ∈ c, V.mode l.var = .sample
  | .atClause _ c hs => (∀ l ∈ c, l.neg ∉ c) ∧ ((∃ l ∈ c, V.True l) ∨ V.Hints (fun l => l.neg ∈ c) hs)
  | .unitClauses us => V.AccUnits us
  | .deleteClause c p => (∀ l ∈ c, l.neg ∉ c) ∧ 2 ≤ (copyCanonical c).1.length ∧
      0 < V.cnt (decide (p = .redundant)) (copyCanonical c).1 ∧
      match p with
      | .redundant => _root_.True
      | .satisfied => (∃ l ∈ c, V.True l) ∧ ∀ l ∈ c, l.var < V.nvars
      | .simplified => ∃ q, V.prev = some q ∧ isSubset q (copyCanonical c).1 true = true
  | .deleteVar v => V.user v = none ∧ ∀ red k, LitsOk k → (∃ l ∈ k, l.var = v) → V.cnt red k = 0
  | .changeSamplingMode v b => b = true → V.mode v = .sample ∨ (V.user v).isSome
  | .userVarName g (some u) => u < max V.nvars (g + 1) ∧ V.used u = false ∧ V.mode g ≠ .hide ∧ V.user g = none
  | .userVarName g none => (V.user g).isSome
  | .model a => (∀ l ∈ a, l.neg ∉ a) ∧ (∀ l ∈ a, l.var < V.nvars ∧ V.unit l.var ≠ some l.isNeg) ∧
      (∀ l ∈ V.asm, l ∈ a) ∧ ∀ red k, LitsOk k → 0 < V.cnt red k → ∃ l ∈ k, l ∈ a
  | .assumptions a => ∀ l ∈ a, V.mode l.var = .sample
  | .failedAssumptions core hs => (∀ l ∈ core, l ∈ V.asm) ∧
      ((∃ l ∈ core, l.neg ∈ core ∨ V.True l.neg) ∨ V.Hints (fun l => l ∈ core) hs)
  | .solverVarName _ _ => _root_.True
  | .changeHashBits _ => False
  | .end_ => False

/-- The user has a name for each of the variables. -/
def Spelled (V : View) (c : List Lit) : Prop :=
  ∀ l ∈ c, l.var < V.nvars ∧ ((V.user l.var).isSome ∨ V.mode l.var = .sample)

/-- The step can be shown to the user (or else a transcript panics). -/
def Tr (V : View) : ProofStep → Prop
  | .addClause c => V.unsat = true ∨ (copyCanonical c).2 = false ∨ V.Spelled c
  | .failedAssumptions core _ => V.Spelled core
  | _ => _root_.True

end View

/-- Clauses. -/
structure SeesC (K : St) (V : View) : Prop where
  pre : Pre K
  count : CountOk K
  cnt : ∀ red k, LitsOk k → wt red k (ents K.buffer K.clauses) = V.cnt red k
  unit : ∀ v, (K.units v).map (·.value) = V.unit v
  unsat : K.unsat = V.unsat

/-- Variables. -/
structure SeesV (K : St) (V : View) : Prop where
  nvars : V.nvars ≤ K.nvars
  user : K.userVar = V.user
  used : K.usedUser = V.used
  mode : K.mode = V.mode
  names : applyNames K.buffered K.names = V.names
  buf : BufOk K

structure Sees (K : St) (V : View) : Prop where
  c : SeesC K V
  v : SeesV K V
  asm : K.assumptions = V.asm
  sorted : SSorted K.assumptions
  prev : V.prev = K.prevId.map (fun _ => K.prevLits)

theorem SeesV.spell {K : St} {V : View} (h : SeesV K V) {c : List Lit} (hc : V.Spelled c) : Spell K c := by
  intro l hl
  obtain ⟨h1, h2⟩ := hc l hl
  have := h.nvars
  unfold userFromProofVar
  rw [if_pos (by omega), h.user, h.mode]
  cases hu : V.user l.var with
  | some u => rfl
  | none =>
    rw [hu] at h2
    simp at h2
    simp [h2]

theorem SeesV.keep {K K' : St} {V : View} (h : SeesV K V) (hk : Keep K K') : SeesV K' V :=
  ⟨Nat.le_trans h.nvars hk.nvars, hk.user.trans h.user, hk.used.trans h.used, hk.mode.trans h.mode,
    hk.names.trans h.names, hk.buf h.buf⟩

theorem SeesC.same {K K' : St} {V : View} (h : SeesC K V) (hs : Same K K') : SeesC K' V :=
  ⟨hs.pre h.pre, h.count.same hs, fun red k hk => by rw [hs.wt]; exact h.cnt red k hk,
    fun v => by rw [hs.units]; exact h.unit v, by rw [hs.unsat]; exact h.unsat⟩

theorem SeesC.bump {K K' : St} {V : View} (h : SeesC K V) (hb : Bump K K') : SeesC K' V := by
  have h1 := h.same hb.same
  exact ⟨⟨h1.pre.wf, h1.pre.glob, h1.pre.trail⟩, h1.count, h1.cnt, h1.unit, h1.unsat⟩

/-- Clause parts of views. -/
theorem SeesC.congr {K : St} {V W : View} (h : SeesC K V) (h1 : W.cnt = V.cnt) (h2 : W.unit = V.unit)
    (h3 : W.unsat = V.unsat) : SeesC K W :=
  ⟨h.pre, h.count, by rw [h1]; exact h.cnt, by rw [h2]; exact h.unit, by rw [h3]; exact h.unsat⟩

theorem SeesV.congr {K : St} {V W : View} (h : SeesV K V) (h1 : W.nvars = V.nvars) (h2 : W.user = V.user)
    (h3 : W.used = V.used) (h4 : W.mode = V.mode) (h5 : W.names = V.names) : SeesV K W :=
  ⟨by rw [h1]; exact h.nvars, by rw [h2]; exact h.user, by rw [h3]; exact h.used, by rw [h4]; exact h.mode,
    by rw [h5]; exact h.names, h.buf⟩

/-- What storing leaves alone. -/
theorem View.store_vars (V : View) (red : Bool) (k : List Lit) :
    (V.store red k).nvars = V.nvars ∧ (V.store red k).user = V.user ∧ (V.store red k).used = V.used ∧
    (V.store red k).mode = V.mode ∧ (V.store red k).names = V.names ∧ (V.store red k).asm = V.asm ∧
    (V.store red k).prev = V.prev := by
  unfold View.store
  split
  · exact ⟨rfl, rfl, rfl, rfl, rfl, rfl, rfl⟩
  · split
    · split <;> exact ⟨rfl, rfl, rfl, rfl, rfl, rfl, rfl⟩
    · exact ⟨rfl, rfl, rfl, rfl, rfl, rfl, rfl⟩
  · exact ⟨rfl, rfl, rfl, rfl, rfl, rfl, rfl⟩

theorem SeesV.store {K : St} {V : View} (h : SeesV K V) (red : Bool) (k : List Lit) : SeesV K (V.store red k) := by
  obtain ⟨h1, h2, h3, h4, h5, _⟩ := V.store_vars red k
  exact h.congr h1 h2 h3 h4 h5

theorem SeesC.stored {K K' : St} {V : View} {lits red id res} (h : SeesC K V)
    (hs : Stored lits red K K' id res) : SeesC K' (V.store red lits) := by
  have hpre := pre_stored h.pre hs
  have hcount := h.count.stored hs
  have hwt := fun (r : Bool) (k : List Lit) (hk : LitsOk k) => hs.wt r hk.len
  have hsame : lits.length < 2 → ∀ r k, LitsOk k →
      wt r k (ents K'.buffer K'.clauses) = wt r k (ents K.buffer K.clauses) := by
    intro hl r k hk
    rw [hwt r k hk, if_neg]
    · simp
    · rintro ⟨rfl, -⟩
      have := hk.len
      omega
  cases hs.kind with
  | empty hl hp hu hsat =>
    subst hl
    refine ⟨hpre, hcount, fun r k hk => ?_, fun v => by rw [hu]; exact h.unit v, hsat⟩
    rw [hsame (by simp) r k hk]; exact h.cnt r k hk
  | unitDup l id hl hv hp hu hsat =>
    subst hl
    have hV : V.unit l.var = some (!l.isNeg) := by rw [← h.unit, hv]; rfl
    have e : V.store red [l] = V := by
      unfold View.store
      simp only [hV, if_true]
    rw [e]
    refine ⟨hpre, hcount, fun r k hk => ?_, fun v => by rw [hu]; exact h.unit v, by rw [hsat]; exact h.unsat⟩
    rw [hsame (by simp) r k hk]; exact h.cnt r k hk
  | unitConflict l cid hl hv hp hu hsat =>
    subst hl
    have hV : V.unit l.var = some l.isNeg := by rw [← h.unit, hv]; rfl
    have e : V.store red [l] = { V with unsat := true } := by
      unfold View.store
      simp only [hV]
      rw [if_neg (by cases l.isNeg <;> simp)]
    rw [e]
    refine ⟨hpre, hcount, fun r k hk => ?_, fun v => by rw [hu]; exact h.unit v, hsat⟩
    rw [hsame (by simp) r k hk]; exact h.cnt r k hk
  | unitNew l hl hv hp hu hsat =>
    subst hl
    have hV : V.unit l.var = none := by rw [← h.unit, hv]; rfl
    have e : V.store red [l] = { V with unit := upd V.unit l.var (some (!l.isNeg)) } := by
      unfold View.store
      simp only [hV]
    rw [e]
    refine ⟨hpre, hcount, fun r k hk => ?_, fun v => ?_, by rw [hsat]; exact h.unsat⟩
    · rw [hsame (by simp) r k hk]; exact h.cnt r k hk
    · rw [hu]
      unfold upd
      dsimp only
      split
      · rfl
      · exact h.unit v
  | long id res hl he hu hsat =>
    have e : V.store red lits = { V with cnt := fun r c => V.cnt r c + if lits = c ∧ r = red then 1 else 0 } := by
      match lits, hl.len with
      | _ :: _ :: _, _ => rfl
    rw [e]
    refine ⟨hpre, hcount, fun r k hk => ?_, fun v => by rw [hu]; exact h.unit v, by rw [hsat]; exact h.unsat⟩
    rw [hwt r k hk, h.cnt r k hk]
    dsimp only
    split <;> simp

end Varisat.Checker
