import Verif.Proof.CheckerAccept3
import Verif.Proof.Solver.FailedCore
import Mathlib.Data.List.Perm.Basic
/-!
# The state of the solver and the view of the checker

`Sim a s V`: the checker whose view is `V` holds the clauses of the solver state `s`, knows its unit
clauses and agrees about the variables.
-/
namespace Varisat.Solver

open Api (Abs)
open Checker (View LitsOk SamplingMode hashOf)

variable {α : Type} [LinearOrder α]

/-- The literal of the proof for a solver literal. -/
def glit (x : Vars) (l : Lit) : Lit := Lit.mk' ((x.gfs.map l.var).getD 0) (!l.isNeg)

/-- The clause of the checker for a clause of the solver. -/
def canon (x : Vars) (ls : List Lit) : List Lit := (copyCanonical (ls.map (glit x))).1

/-- A list of solver literals that can be a clause. -/
structure Ordin (x : Vars) (ls : List Lit) : Prop where
  pres : ∀ l ∈ ls, x.pres l.var
  nodup : (ls.map Lit.var).Nodup

section canon

variable {x : Vars} {ls ms : List Lit} {l m : Lit}

@[simp] theorem glit_isNeg : (glit x l).isNeg = l.isNeg := by simp [glit]

theorem glit_var {g : Nat} (h : x.gfs.map l.var = some g) : (glit x l).var = g := by simp [glit, h]

theorem glit_of {g : Nat} (h : x.gfs.map l.var = some g) : glit x l = Lit.mk' g (!l.isNeg) := by simp [glit, h]

@[simp] theorem glit_neg : glit x l.neg = (glit x l).neg :=
  Lit.ext_var_neg (by simp [glit]) (by simp [glit])

theorem glit_mk' {v g : Nat} {b : Bool} (h : x.gfs.map v = some g) : glit x (Lit.mk' v b) = Lit.mk' g b := by
  simp [glit, h]

theorem VInv.glit_var_inj (hv : VInv x) (h1 : x.pres l.var) (h2 : x.pres m.var) (h : (glit x l).var = (glit x m).var) :
    l.var = m.var := by
  obtain ⟨g, hg⟩ := Option.isSome_iff_exists.1 h1
  obtain ⟨k, hk⟩ := Option.isSome_iff_exists.1 h2
  rw [glit_var hg, glit_var hk] at h
  subst h
  have e1 := (hv.gs g l.var).2 hg
  have e2 := (hv.gs g m.var).2 hk
  rw [e1] at e2
  simpa using e2

theorem VInv.glit_inj (hv : VInv x) (h1 : x.pres l.var) (h2 : x.pres m.var) (h : glit x l = glit x m) : l = m :=
  Lit.ext_var_neg (hv.glit_var_inj h1 h2 (by rw [h])) (by rw [← glit_isNeg (x := x) (l := l), h, glit_isNeg])

theorem mem_canon {k : Lit} : k ∈ canon x ls ↔ ∃ l ∈ ls, glit x l = k := by
  unfold canon
  rw [mem_canonical, List.mem_map]

theorem canon_ssorted : SSorted (canon x ls) := canonical_ssorted _

theorem Ordin.perm (h : Ordin x ls) (hp : ls.Perm ms) : Ordin x ms :=
  ⟨fun l hl => h.pres l (hp.mem_iff.2 hl), (hp.map _).nodup_iff.1 h.nodup⟩

theorem Ordin.sub (h : Ordin x ls) (hs : ms.Sublist ls) : Ordin x ms :=
  ⟨fun l hl => h.pres l (hs.subset hl), (hs.map _).nodup h.nodup⟩

theorem Ordin.nd (h : Ordin x ls) : ls.Nodup := List.Nodup.of_map _ h.nodup

theorem Ordin.inj (h : Ordin x ls) (h1 : l ∈ ls) (h2 : m ∈ ls) (he : l.var = m.var) : l = m :=
  List.inj_on_of_nodup_map h.nodup h1 h2 he

theorem Ordin.map_perm (h : Ordin x ls) (hv : VInv x) : (canon x ls).Perm (ls.map (glit x)) := by
  refine (List.perm_ext_iff_of_nodup (canon_ssorted (x := x) (ls := ls)).nodup ?_).2 fun k => ?_
  · exact h.nd.map_on fun a ha b hb he => hv.glit_inj (h.pres a ha) (h.pres b hb) he
  · rw [mem_canon, List.mem_map]

theorem Ordin.length (h : Ordin x ls) (hv : VInv x) : (canon x ls).length = ls.length := by
  rw [(h.map_perm hv).length_eq, List.length_map]

theorem Ordin.notaut (h : Ordin x ls) (hv : VInv x) : ∀ k ∈ ls.map (glit x), k.neg ∉ ls.map (glit x) := by
  intro k hk hn
  obtain ⟨a, ha, rfl⟩ := List.mem_map.1 hk
  obtain ⟨b, hb, he⟩ := List.mem_map.1 hn
  rw [← glit_neg] at he
  have e := hv.glit_inj (h.pres b hb) (by simpa using h.pres a ha) he
  have := h.inj hb ha (by rw [e, Lit.var_neg])
  rw [this] at e
  exact Lit.ne_neg a e

theorem Ordin.litsOk (h : Ordin x ls) (hv : VInv x) (hl : 2 ≤ ls.length) : LitsOk (canon x ls) := by
  refine ⟨canon_ssorted, by rw [h.length hv]; exact hl, fun k hk hn => ?_⟩
  exact h.notaut hv k (by simpa [canon, mem_canonical] using hk) (by simpa [canon, mem_canonical] using hn)

theorem canon_perm (h : ls.Perm ms) : canon x ls = canon x ms := by
  refine ssorted_ext canon_ssorted canon_ssorted fun k => ?_
  rw [mem_canon, mem_canon]
  simp only [h.mem_iff]

theorem Ordin.canon_iff (h : Ordin x ls) (h' : Ordin x ms) (hv : VInv x) : canon x ls = canon x ms ↔ ls.Perm ms := by
  refine ⟨fun e => ?_, canon_perm⟩
  refine (List.perm_ext_iff_of_nodup h.nd h'.nd).2 fun k => ?_
  constructor
  · intro hk
    have : glit x k ∈ canon x ms := by rw [← e]; exact mem_canon.2 ⟨k, hk, rfl⟩
    obtain ⟨l, hl, he⟩ := mem_canon.1 this
    rwa [← hv.glit_inj (h'.pres l hl) (h.pres k hk) he]
  · intro hk
    have : glit x k ∈ canon x ls := by rw [e]; exact mem_canon.2 ⟨k, hk, rfl⟩
    obtain ⟨l, hl, he⟩ := mem_canon.1 this
    rwa [← hv.glit_inj (h.pres l hl) (h'.pres k hk) he]

theorem hash_glit (hv : VInv x) : ∀ (ls : List Lit) (z : Nat), (∀ l ∈ ls, x.pres l.var) →
    (ls.map (glit x)).foldl (fun h l => match x.sfg.map l.var with
      | some v => h ^^^ litHash (Lit.mk' v (!l.isNeg))
      | none => h ^^^ litCodeHash (l.code + maxVarCount * 2)) z = ls.foldl (fun h l => h ^^^ litHash l) z
  | [], _, _ => rfl
  | l :: ls, z, h => by
    obtain ⟨g, hg⟩ := Option.isSome_iff_exists.1 (h l (by simp))
    simp only [List.map_cons, List.foldl_cons]
    rw [hash_glit hv ls _ (fun m hm => h m (by simp [hm]))]
    rw [glit_var hg, (hv.gs g l.var).2 hg, glit_isNeg]
    simp only [Lit.mk'_var_neg]

theorem Ordin.hash (h : Ordin x ls) (hv : VInv x) : hashOf 64 x.sfg.map (canon x ls) = clauseHash ls := by
  unfold hashOf clauseHash
  simp only
  rw [show (2 ^ 32 + 64 - 64) % 64 = 0 by decide, Nat.shiftRight_zero, ← hash_glit hv ls 0 h.pres]
  refine (h.map_perm hv).foldl_eq' (fun a _ b _ z => ?_) 0
  have h3 : ∀ p q r : Nat, p ^^^ q ^^^ r = p ^^^ r ^^^ q := fun p q r => by
    rw [Nat.xor_assoc, Nat.xor_assoc, Nat.xor_comm q]
  split <;> split <;> exact h3 _ _ _

theorem Ordin.named (h : Ordin x ls) (hv : VInv x) : ∀ k ∈ canon x ls, (x.sfg.map k.var).isSome = true := by
  intro k hk
  obtain ⟨l, hl, rfl⟩ := mem_canon.1 hk
  obtain ⟨g, hg⟩ := Option.isSome_iff_exists.1 (h.pres l hl)
  rw [glit_var hg, (hv.gs g l.var).2 hg]
  rfl

end canon

/-! ### Steps -/

/-- A step in the variables of the proof. -/
def gstep (x : Vars) : ProofStep → ProofStep
  | .addClause c => .addClause (c.map (glit x))
  | .atClause r c h => .atClause r (c.map (glit x)) h
  | .unitClauses us => .unitClauses (us.map (fun u => (glit x u.1, u.2)))
  | .deleteClause c p => .deleteClause (c.map (glit x)) p
  | .model a => .model (a.map (glit x))
  | .assumptions a => .assumptions (a.map (glit x))
  | .failedAssumptions c h => .failedAssumptions (c.map (glit x)) h
  | s => s

theorem mapLits_glit {x : Vars} : ∀ {c : List Lit}, (∀ l ∈ c, x.pres l.var) →
    c.mapM (mapLit? x.gfs.map) = some (c.map (glit x))
  | [], _ => rfl
  | l :: ls, h => by
    obtain ⟨v, hv⟩ := Option.isSome_iff_exists.1 (h l (by simp))
    rw [List.mapM_cons, mapLits_glit (c := ls) (fun m hm => h m (by simp [hm]))]
    simp [mapLit?, hv, glit]

theorem mapUnits_glit {x : Vars} : ∀ {c : List (Lit × Nat)}, (∀ l ∈ c, x.pres l.1.var) →
    c.mapM (fun u => (mapLit? x.gfs.map u.1).map (fun l => (l, u.2))) = some (c.map (fun u => (glit x u.1, u.2)))
  | [], _ => rfl
  | l :: ls, h => by
    obtain ⟨v, hv⟩ := Option.isSome_iff_exists.1 (h l (by simp))
    rw [List.mapM_cons, mapUnits_glit (c := ls) (fun m hm => h m (by simp [hm]))]
    simp [mapLit?, hv, glit]

theorem St.emit_glit {s : St α} {st : ProofStep} (h : ∀ l ∈ stepLits st, s.vars.pres l.var) :
    s.emit st = .ok { s with log := s.log ++ [gstep s.vars st] } := by
  unfold St.emit
  cases st
  case addClause c => rw [mapStep?, mapLits_glit (c := c) h]; rfl
  case atClause r c hs => rw [mapStep?, mapLits_glit (c := c) h]; rfl
  case unitClauses us =>
    rw [mapStep?, mapUnits_glit (fun l hl => h l.1 (List.mem_map.2 ⟨l, hl, rfl⟩))]; rfl
  case deleteClause c p => rw [mapStep?, mapLits_glit (c := c) h]; rfl
  case model c => rw [mapStep?, mapLits_glit (c := c) h]; rfl
  case assumptions c => rw [mapStep?, mapLits_glit (c := c) h]; rfl
  case failedAssumptions c hs => rw [mapStep?, mapLits_glit (c := c) h]; rfl
  all_goals rfl

/-! ### The relation -/

/-- How often a clause is held, as a redundant clause or not. -/
def stored (bin : Lit → List Lit) (db : Db α) (red : Bool) (ls : List Lit) : Nat :=
  match ls with
  | [a, b] => if red then 0 else (bin a.neg).count b
  | ls => db.iter.countP (fun c => (decide ((db.hdr c).tier ≠ .irred) == red) && decide ((db.lits c).Perm ls))

/-- A sampling mode of the checker. -/
def smode : Mode → SamplingMode
  | .sample => .sample
  | .witness => .witness
  | .hide => .hide

/-- The sampling mode the checker has for a global variable. -/
def gmode (x : Vars) (g : Nat) : SamplingMode :=
  match x.data[g]? with
  | some d => if d.deleted then .sample else smode d.mode
  | none => .sample

/-- A literal known as a unit clause. -/
def Known (p : Pt) (l : Lit) : Prop := p.Root l ∧ p.reason l.var = .unit

/-- The value known for a global variable. -/
def KnownG (x : Vars) (p : Pt) (g : Nat) (b : Bool) : Prop :=
  match x.sfg.map g with
  | some v => Known p (Lit.mk' v b)
  | none => ∃ d, x.data[g]? = some d ∧ d.deleted = false ∧ d.unit = some b

/-- The variables. -/
structure SimV (x : Vars) (V : View) : Prop where
  names : V.names = x.sfg.map
  user : V.user = x.ufg.map
  used : ∀ u, V.used u = (x.gfu.map u).isSome
  mode : ∀ g, V.mode g = gmode x g
  nvars : V.nvars = x.data.length
  ulen : x.gfu.len ≤ x.data.length
  slen : x.gfs.len ≤ x.data.length

/-- The clauses, `st` being how often each is held. -/
structure SimC (x : Vars) (st : Bool → List Lit → Nat) (V : View) : Prop where
  cnt : ∀ red ls, Ordin x ls → 2 ≤ ls.length → V.cnt red (canon x ls) = st red ls
  only : ∀ red k, LitsOk k → 0 < V.cnt red k → ∃ ls, Ordin x ls ∧ k = canon x ls

/-- The clauses of the solver are over variables in use. -/
structure InUse (x : Vars) (bin : Lit → List Lit) (db : Db α) : Prop where
  bins : ∀ a b, b ∈ bin a.neg → Ordin x [a, b]
  long : ∀ c ∈ db.iter, Ordin x (db.lits c) ∧ 3 ≤ (db.lits c).length

/-- The unit clauses. -/
def SimU (x : Vars) (p : Pt) (V : View) : Prop := ∀ g b, V.unit g = some b ↔ KnownG x p g b

/-- The assumptions of the checker are those of the user (`none`: while they are replaced). -/
def AsmV (a : Option Abs) (x : Vars) (ls : List Lit) : Prop :=
  ∀ b, a = some b → ∀ l ∈ ls, ∃ u d i, x.gfu.map u = some l.var ∧ x.data[l.var]? = some d ∧ d.assumed = true ∧
    b.name u = some i ∧ Lit.mk' i (!l.isNeg) ∈ b.assumptions

/-- The parts of a state that a view depends on, `st` being how often each clause is held. -/
structure SimB (a : Option Abs) (x : Vars) (p : Pt) (st : Bool → List Lit → Nat) (V : View) : Prop where
  v : SimV x V
  u : SimU x p V
  c : SimC x st V
  as : AsmV a x V.asm

structure Sim (a : Option Abs) (s : St α) (V : View) : Prop where
  b : SimB a s.vars s.p (stored s.bins.byLit s.db) V
  use : InUse s.vars s.bins.byLit s.db
  unsat : V.unsat = true ↔ s.sat = .unsat
  asm : ∀ l ∈ s.asm.lits, s.vars.pres l.var ∧ glit s.vars l ∈ V.asm

/-- All literals of level 0 are known as unit clauses. -/
def R0 (p : Pt) : Prop := ∀ l, p.Root l → p.reason l.var = .unit

end Varisat.Solver
