import Verif.Proof.Solver.SemAdd
import Verif.Proof.Solver.Queue
/-!
# The invariant of the solver during a search, and propagation
-/
namespace Varisat.Solver

variable {α : Type} [LinearOrder α]

/-- The variable maps agree with each other, with the free lists and with the variable data. -/
structure VInv (x : Vars) : Prop where
  us : ∀ u g, x.gfu.map u = some g ↔ x.ufg.map g = some u
  gs : ∀ g v, x.sfg.map g = some v ↔ x.gfs.map v = some g
  ulen : ∀ u g, x.gfu.map u = some g → u < x.gfu.len
  slen : ∀ v g, x.gfs.map v = some g → v < x.gfs.len
  ulive : ∀ u g, x.gfu.map u = some g → ∃ d, x.data[g]? = some d ∧ d.deleted = false ∧ d.mode ≠ .hide
  slive : ∀ v g, x.gfs.map v = some g → x.Live g
  hid : ∀ g d, x.data[g]? = some d → d.deleted = false → d.mode ≠ .hide → (x.ufg.map g).isSome = true
  ufree : ∀ u, u ∈ x.userFree ↔ u < x.gfu.len ∧ x.gfu.map u = none
  sfree : ∀ v, v ∈ x.solverFree ↔ v < x.gfs.len ∧ x.gfs.map v = none
  gfree : ∀ g ∈ x.globalFree, ∃ d, x.data[g]? = some d ∧ d.deleted = true

/-- The decision queue contains all unassigned variables in use. -/
structure QInv (q : Vsids α) (x : Vars) (p : Pt) : Prop where
  wf : Vsids.WF q
  count : q.count = x.gfs.len
  pres : ∀ v, q.Avail v → x.pres v
  all : ∀ v, x.pres v → p.value v = none → q.Avail v

/-- The assumptions are in use and marked as assumed. -/
def AsmOk (x : Vars) (ls : List Lit) : Prop :=
  ∀ l ∈ ls, ∃ g d, x.gfs.map l.var = some g ∧ x.data[g]? = some d ∧ d.assumed = true ∧ d.mode ≠ .hide

/-- The first decisions are the first assumptions. -/
def AsmDec (p : Pt) (ls : List Lit) : Prop :=
  ∀ i, i < p.curLevel → ∀ l, ls[i]? = some l → ∃ n, p.decisions[i]? = some n ∧ p.At n l

/-- The solver literal holds in an assignment of the variables of the formula. -/
def VHolds (x : Vars) (ids : Nat → Nat) (τ : Asg) (l : Lit) : Prop :=
  ∃ g, x.gfs.map l.var = some g ∧ τ (ids g) = !l.isNeg

theorem vholds_iff {x : Vars} {ids : Nat → Nat} {τ : Asg} {l : Lit} {p : Pt} (h : x.pres l.var) :
    VHolds x ids τ l ↔ l.holds (lift x p (fun g => τ (ids g))) := by
  obtain ⟨g, hg⟩ := Option.isSome_iff_exists.1 h
  unfold VHolds Lit.holds
  rw [lift_pres hg, hg]
  simp

theorem AsmOk.pres {x : Vars} {ls : List Lit} (h : AsmOk x ls) : ∀ l ∈ ls, x.pres l.var := by
  intro l hl
  obtain ⟨g, d, h1, _⟩ := h l hl
  simp [Vars.pres, h1]

theorem AsmOk.user {x : Vars} (hv : VInv x) {ls : List Lit} (h : AsmOk x ls) :
    ∀ l ∈ ls, ∃ u, ((x.gfs.map l.var).bind x.ufg.map) = some u := by
  intro l hl
  obtain ⟨g, d, h1, h2, _, h4⟩ := h l hl
  obtain ⟨d', h5, h6⟩ := hv.slive _ _ h1
  have : d' = d := by rw [h2] at h5; simpa using h5.symm
  subst this
  obtain ⟨u, hu⟩ := Option.isSome_iff_exists.1 (hv.hid g _ h2 h6 h4)
  exact ⟨u, by rw [h1]; exact hu⟩

/-- The assumptions kept by the solver: under the formula they say the same as those of the user, and each is one of those. -/
structure AsOk (F : List (List Lit)) (A : List Lit) (ids : Nat → Nat) (x : Vars) (ls : List Lit) : Prop where
  iff : ∀ τ, cnfSat τ F → ((∀ l ∈ ls, VHolds x ids τ l) ↔ allHold τ A)
  mem : ∀ l ∈ ls, ∀ g, x.gfs.map l.var = some g → Lit.mk' (ids g) (!l.isNeg) ∈ A

theorem AsOk.congr {F : List (List Lit)} {A : List Lit} {ids : Nat → Nat} {x y : Vars} {ls : List Lit} (h : AsOk F A ids x ls)
    (hg : ∀ l ∈ ls, y.gfs.map l.var = x.gfs.map l.var) : AsOk F A ids y ls := by
  constructor
  · intro τ hτ
    rw [← h.iff τ hτ]
    refine forall_congr' fun l => forall_congr' fun hl => ?_
    unfold VHolds
    rw [hg l hl]
  · intro l hl g k
    exact h.mem l hl g (by rw [← hg l hl]; exact k)

/-- The invariant during a search. -/
structure SInv (F : List (List Lit)) (A : List Lit) (ids : Nat → Nat) (s : St α) : Prop where
  v : VInv s.vars
  q : QInv s.vsids s.vars s.p
  fl : ∀ v, s.vflags v = false
  asm : AsmOk s.vars s.asm.lits
  core : Core F ids s.bins.byLit s.w s.db s.vars s.p
  dec : AsmDec s.p s.asm.lits
  as : AsOk F A ids s.vars s.asm.lits

theorem SInv.lt {F : List (List Lit)} {A : List Lit} {ids : Nat → Nat} {s : St α} (h : SInv F A ids s) :
    ∀ v, s.vars.pres v → v < s.varCount := by
  intro v hv
  obtain ⟨g, hg⟩ := Option.isSome_iff_exists.1 hv
  unfold St.varCount
  rw [h.q.count]
  exact h.v.slen v g hg

/-- All pending literals are in level 0, or level 0 has none. -/
def L0 (p : Pt) : Prop := (p.decisions = [] ∧ p.qhead = 0) ∨ p.decisions[0]? = some 0

theorem Ext.same {p q : Pt} (h : Ext p q) {v : Nat} (hv : ∀ l ∈ q.trail, l.var ≠ v) :
    q.value v = p.value v ∧ q.node v = p.node v := by
  induction h with
  | refl => exact ⟨rfl, rfl⟩
  | @step q m r h' hu hr ih =>
    have hm : v ≠ m.var := fun he => hv m (by simp) he.symm
    rw [Pt.enqueue_value_ne hm, Pt.enqueue_node_ne hm]
    exact ih (fun l hl => hv l (by simp [hl]))

/-! ### Steps of the proof -/

theorem mapLits_ok {f : Nat → Option Nat} : ∀ {c : List Lit}, (∀ l ∈ c, (f l.var).isSome = true) →
    ∃ c', c.mapM (mapLit? f) = some c'
  | [], _ => ⟨[], rfl⟩
  | l :: ls, h => by
    obtain ⟨c', hc⟩ := mapLits_ok (c := ls) (fun m hm => h m (by simp [hm]))
    obtain ⟨v, hv⟩ := Option.isSome_iff_exists.1 (h l (by simp))
    refine ⟨Lit.mk' v (!l.isNeg) :: c', ?_⟩
    rw [List.mapM_cons, hc]
    simp [mapLit?, hv]

theorem mapUnits_ok {f : Nat → Option Nat} : ∀ {c : List (Lit × Nat)}, (∀ l ∈ c, (f l.1.var).isSome = true) →
    ∃ c', c.mapM (fun u => (mapLit? f u.1).map (fun l => (l, u.2))) = some c'
  | [], _ => ⟨[], rfl⟩
  | l :: ls, h => by
    obtain ⟨c', hc⟩ := mapUnits_ok (c := ls) (fun m hm => h m (by simp [hm]))
    obtain ⟨v, hv⟩ := Option.isSome_iff_exists.1 (h l (by simp))
    refine ⟨(Lit.mk' v (!l.1.isNeg), l.2) :: c', ?_⟩
    rw [List.mapM_cons, hc]
    simp [mapLit?, hv]

/-- The literals of a proof step. -/
def stepLits : ProofStep → List Lit
  | .addClause c => c
  | .atClause _ c _ => c
  | .unitClauses us => us.map (·.1)
  | .deleteClause c _ => c
  | .model a => a
  | .assumptions a => a
  | .failedAssumptions c _ => c
  | _ => []

namespace St

theorem emit_ok {s : St α} {x : ProofStep} (h : ∀ l ∈ stepLits x, s.vars.pres l.var) :
    ∃ L, s.emit x = .ok { s with log := L } := by
  have key : ∃ y, mapStep? s.vars.gfs.map x = some y := by
    cases x
    case addClause c => obtain ⟨c', hc⟩ := mapLits_ok (c := c) h; exact ⟨_, by rw [mapStep?, hc]; rfl⟩
    case atClause r c hs => obtain ⟨c', hc⟩ := mapLits_ok (c := c) h; exact ⟨_, by rw [mapStep?, hc]; rfl⟩
    case unitClauses us =>
      obtain ⟨c', hc⟩ := mapUnits_ok (f := s.vars.gfs.map) (c := us) (fun l hl => h l.1 (List.mem_map.2 ⟨l, hl, rfl⟩))
      exact ⟨_, by rw [mapStep?, hc]; rfl⟩
    case deleteClause c p => obtain ⟨c', hc⟩ := mapLits_ok (c := c) h; exact ⟨_, by rw [mapStep?, hc]; rfl⟩
    case model c => obtain ⟨c', hc⟩ := mapLits_ok (c := c) h; exact ⟨_, by rw [mapStep?, hc]; rfl⟩
    case assumptions c => obtain ⟨c', hc⟩ := mapLits_ok (c := c) h; exact ⟨_, by rw [mapStep?, hc]; rfl⟩
    case failedAssumptions c hs => obtain ⟨c', hc⟩ := mapLits_ok (c := c) h; exact ⟨_, by rw [mapStep?, hc]; rfl⟩
    all_goals exact ⟨_, rfl⟩
  obtain ⟨y, hy⟩ := key
  exact ⟨_, by rw [emit, hy]⟩

theorem emitAll_ok : ∀ {xs : List ProofStep} {s : St α}, (∀ x ∈ xs, ∀ l ∈ stepLits x, s.vars.pres l.var) →
    ∃ L, emitAll xs s = .ok { s with log := L }
  | [], s, _ => ⟨s.log, rfl⟩
  | x :: xs, s, h => by
    obtain ⟨L, hL⟩ := emit_ok (s := s) (h x (by simp))
    obtain ⟨L', hL'⟩ := emitAll_ok (xs := xs) (s := { s with log := L }) (fun y hy => h y (by simp [hy]))
    refine ⟨L', ?_⟩
    rw [emitAll, hL]
    exact hL'

end St

/-! ### Propagation -/

theorem Used.perm {bin : Lit → List Lit} {db : Db α} {lits : Nat → List Lit}
    (hp : ∀ c, (lits c).Perm (db.lits c)) {v : Nat} :
    (cls bin { db with lits := lits }).Used v ↔ (cls bin db).Used v := by
  constructor
  · rintro (⟨c, hc, l, hl, rfl⟩ | h)
    · exact .inl ⟨c, hc, l, (hp c).mem_iff.1 hl, rfl⟩
    · exact .inr h
  · rintro (⟨c, hc, l, hl, rfl⟩ | h)
    · exact .inl ⟨c, hc, l, (hp c).mem_iff.2 hl, rfl⟩
    · exact .inr h

/-- The state after propagation still stands for the formula. -/
theorem Core.propagated {F : List (List Lit)} {ids : Nat → Nat} {bin : Lit → List Lit} {w w' : Wl} {db : Db α}
    {x : Vars} {p : Pt} (h : Core F ids bin w db x p) {q : Pt} {lits : Nat → List Lit} (he : PExt p q)
    (hc : CInv x.pres ⟨bin, lits, db.Live⟩ q) (hp : ∀ c, (lits c).Perm (db.lits c))
    (hw : w'.enabled = true → WOk ⟨bin, lits, db.Live⟩ w'.watches) :
    Core F ids bin w' { db with lits := lits } x q := by
  have hlift : ∀ σ, lift x q σ = lift x p σ := by
    refine lift_congr (fun v hv => ?_)
    exact (he.ext.same (v := v) (fun l hl hlv => hv (hlv ▸ hc.pres l hl))).1
  have hsub : ∀ l, p.Root l → q.Root l := fun l hl => he.ext.root (p := { p with qhead := q.qhead }) hl
  refine ⟨hc, hw, Db.relit_ok h.dbi lits (fun c => Nat.le_of_eq (hp c).length_eq), ?_, ?_,
    fun v g d b h1 h2 h3 => hsub _ (h.unit v g d b h1 h2 h3), ?_⟩
  · intro τ hτ
    obtain ⟨a, b, c⟩ := h.s1 τ hτ
    have hs : Cl.Sat ⟨bin, lits, db.Live⟩ (lift x p (fun g => τ (ids g))) :=
      a.weaken (fun _ _ h => h) (fun c hc => ⟨c, hc, fun l hl => (hp c).mem_iff.2 hl⟩)
    refine ⟨by rw [hlift]; exact hs, ?_, c⟩
    rw [hlift]
    refine root_implied hc hs ?_ ?_
    · intro k l hk hr hl
      have hk' := he.ext.unit hk hr
      refine b l ⟨h.c.tr.at_true hk', .inl ⟨k, hk', ?_⟩⟩
      rw [he.ext.decisions] at hl; exact hl
    · intro l ht hd
      have hnt : ∀ m ∈ q.trail, m.var ≠ l.var := by
        intro m hm hv
        obtain ⟨k, hk⟩ := Pt.At.of_mem hm
        have := hc.tr.depth k m hk
        rw [hv, hd] at this; cases this
      obtain ⟨h1, h2⟩ := he.ext.same hnt
      refine b l ⟨?_, .inr ?_⟩
      · rw [Pt.isTrue_iff] at ht ⊢; rw [← ht]; exact h1.symm
      · rw [← hd, h2]
  · intro σ ⟨a, b, c⟩
    rw [hlift] at a b
    refine h.s2 σ ⟨a.weaken (fun _ _ h => h) ?_, fun l hl => b l (hsub l hl), c⟩
    rintro d hd
    exact ⟨d, hd, fun l hl => (hp d).mem_iff.1 hl⟩
  · intro v g d h1 h2 h3 hus
    exact h.iso v g d h1 h2 h3 ((Used.perm hp).1 hus)

variable {F : List (List Lit)} {A : List Lit} {ids : Nat → Nat}

/-- `propagate`. -/
theorem St.propagate_ok {s : St α} (h : Core F ids s.bins.byLit s.w s.db s.vars s.p)
    (h2 : Prop2 s.bins.byLit s.db s.p) (hlt : ∀ v, s.vars.pres v → v < s.varCount) :
    ∃ q ws lits o, s.propagate = .ok ({ s with
        p := q
        w := { watches := ws, enabled := true }
        db := { s.db with lits := lits } }, o) ∧
      Core F ids s.bins.byLit { watches := ws, enabled := true } { s.db with lits := lits } s.vars q ∧
      PExt s.p q ∧ (∀ c, (lits c).Perm (s.db.lits c)) ∧
      (o = none → Prop2 s.bins.byLit { s.db with lits := lits } q ∧ q.qhead = q.trail.length) ∧
      ∀ c, o = some c → CRes s.vars.pres (cls s.bins.byLit { s.db with lits := lits }) q c := by
  obtain ⟨w', e1, e2, e3⟩ := Db.enableWatchlists_ok (bin := s.bins.byLit) h.dbi (w := s.w)
    (fun c hc => ⟨h.c.len c hc, h.c.nodup c hc⟩) h.wok
  unfold St.propagate
  rw [e1]
  simp only
  obtain ⟨s', o, f1, f2⟩ := propLoop_ok (bin := s.bins.byLit) (live := s.db.Live) hlt (s.varCount + 1)
    { p := s.p, watches := w'.watches, lits := s.db.lits } ⟨h.c, h2.b, h2.w, e3⟩ (by simp only; omega)
  rw [f1]
  refine ⟨s'.p, s'.watches, s'.lits, o, ?_, ?_, f2.ext, f2.perm, ?_, ?_⟩
  · show Except.ok _ = _
    rw [e2]
  · exact h.propagated f2.ext f2.c f2.perm (fun _ => f2.ok)
  · intro ho
    obtain ⟨k1, k2⟩ := f2.none_ ho
    exact ⟨⟨k1.b, k1.w⟩, k2⟩
  · exact f2.some_

end Varisat.Solver
