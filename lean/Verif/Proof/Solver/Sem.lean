import Verif.Model.Solver.Cdcl
import Verif.Proof.Solver.Minimize
import Verif.Proof.Solver.Backtrack
import Verif.Proof.Solver.Reduce
import Verif.Proof.Solver.Gc
/-!
# The clauses of a solver state and the formula they stand for
-/
namespace Varisat.Solver

variable {α : Type} [LinearOrder α]

/-- The solver variable is in use. -/
def Vars.pres (x : Vars) (v : Nat) : Prop := (x.gfs.map v).isSome = true

/-- The global variable exists. -/
def Vars.Live (x : Vars) (g : Nat) : Prop := ∃ d, x.data[g]? = some d ∧ d.deleted = false

/-- The assignment of solver variables for an assignment of global variables. Unused solver variables
keep their value. -/
def lift (x : Vars) (p : Pt) (σ : Asg) : Asg := fun v =>
  match x.gfs.map v with
  | some g => σ g
  | none => (p.value v).getD false

/-- All stored clauses. -/
def cls (bin : Lit → List Lit) (db : Db α) : Cl := ⟨bin, db.lits, db.Live⟩

/-- The irredundant clauses. -/
def irrs (bin : Lit → List Lit) (db : Db α) : Cl :=
  ⟨bin, db.lits, fun c => db.Live c ∧ (db.hdr c).tier = .irred⟩

/-- An assignment of the global variables satisfies the clauses, the fixed literals and the recorded
units. -/
structure Holds (C : Cl) (x : Vars) (p : Pt) (σ : Asg) : Prop where
  cl : C.Sat (lift x p σ)
  root : ∀ l, p.Root l → l.holds (lift x p σ)
  unit : ∀ g d b, x.data[g]? = some d → d.deleted = false → d.unit = some b → σ g = b

theorem Holds.mod {C : Cl} {x : Vars} {p : Pt} {σ : Asg} (h : Holds C x p σ) : C.Mod p (lift x p σ) :=
  ⟨h.cl, h.root⟩

/-- The state stands for the formula `F`; `ids` gives the variable of `F` of a global variable. -/
structure Core (F : List (List Lit)) (ids : Nat → Nat) (bin : Lit → List Lit) (w : Wl) (db : Db α)
    (x : Vars) (p : Pt) : Prop where
  c : CInv x.pres (cls bin db) p
  wok : w.enabled = true → WOk (cls bin db) w.watches
  dbi : DbInv db
  s1 : ∀ τ, cnfSat τ F → Holds (cls bin db) x p (fun g => τ (ids g))
  s2 : ∀ σ, Holds (irrs bin db) x p σ → ∃ τ, cnfSat τ F ∧ ∀ g, x.Live g → τ (ids g) = σ g
  unit : ∀ v g d b, x.gfs.map v = some g → x.data[g]? = some d → d.unit = some b → p.Root (Lit.mk' v b)
  iso : ∀ v g d, x.gfs.map v = some g → x.data[g]? = some d → d.isolated = true → ¬ (cls bin db).Used v

/-- Nothing is left to do for the propagated literals. -/
structure Prop2 (bin : Lit → List Lit) (db : Db α) (p : Pt) : Prop where
  b : BInv (cls bin db) p (fun _ _ => False)
  w : WInv (cls bin db) p (fun _ _ => False)

theorem lift_congr {x : Vars} {p q : Pt} (h : ∀ v, ¬ x.pres v → q.value v = p.value v) (σ : Asg) :
    lift x q σ = lift x p σ := by
  funext v
  unfold lift
  cases hv : x.gfs.map v with
  | some g => rfl
  | none => simp only; rw [h v (by simp [Vars.pres, hv])]

theorem lift_pres {x : Vars} {p : Pt} {σ : Asg} {v g : Nat} (h : x.gfs.map v = some g) :
    lift x p σ v = σ g := by
  unfold lift; rw [h]

/-- Weaker clauses are satisfied too. -/
theorem Cl.Sat.weaken {C C' : Cl} {a : Asg} (h : C.Sat a) (hb : ∀ l, ∀ m ∈ C'.bin l, m ∈ C.bin l)
    (hl : ∀ c', C'.live c' → ∃ c, C.live c ∧ ∀ l ∈ C.lits c, l ∈ C'.lits c') : C'.Sat a := by
  refine ⟨fun l m hm => h.bin l m (hb l m hm), fun c' hc' => ?_⟩
  obtain ⟨c, hc, hs⟩ := hl c' hc'
  exact clauseSat_mono hs (h.long c hc)

theorem irrs_sat {bin : Lit → List Lit} {db : Db α} {a : Asg} (h : (cls bin db).Sat a) :
    (irrs bin db).Sat a := h.weaken (fun _ _ h => h) (fun c hc => ⟨c, hc.1, fun _ h => h⟩)

/-- All fixed literals hold if the propagated ones are implied. -/
theorem root_implied {pres : Nat → Prop} {C : Cl} {p : Pt} (h : CInv pres C p) {a : Asg} (hs : C.Sat a)
    (hr : ∀ k l, p.At k l → p.reason l.var = .unit → lvl p.decisions k = 0 → l.holds a)
    (hn : ∀ l, p.isTrue l = true → (p.node l.var).depth = none → l.holds a) :
    ∀ l, p.Root l → l.holds a := by
  rintro l ⟨ht, ⟨k, hk, hl⟩ | hd⟩
  · refine trail_implied h hs hr k ?_ k (Nat.le_refl _) l hk
    intro j m _ hj hjk
    exfalso
    have : 0 < lvl p.decisions k := by
      unfold lvl
      rw [List.countP_pos_iff]
      exact ⟨j, hj, by simpa using hjk⟩
    omega
  · exact hn l ht hd

namespace Core
variable {F : List (List Lit)} {ids : Nat → Nat} {bin : Lit → List Lit} {w : Wl} {db : Db α} {x : Vars}
  {p : Pt}

theorem absent_value (h : Core F ids bin w db x p) {q : Pt}
    (hq : ∀ v, (∀ l ∈ p.trail, l.var ≠ v) → (∀ l ∈ q.trail, l.var ≠ v) → q.value v = p.value v)
    (ht : ∀ l ∈ q.trail, x.pres l.var) : ∀ v, ¬ x.pres v → q.value v = p.value v := by
  intro v hv
  apply hq
  · rintro l hl rfl; exact hv (h.c.pres l hl)
  · rintro l hl rfl; exact hv (ht l hl)

/-- Backtracking. -/
theorem backtrack (h : Core F ids bin w db x p) {level n : Nat} (hd : p.decisions[level]? = some n) :
    Core F ids bin w db x (p.backtrack level).1 := by
  have hf := Pt.backtrack_fields hd
  have hlift : ∀ σ, lift x (p.backtrack level).1 σ = lift x p σ := by
    refine lift_congr (h.absent_value ?_ ?_)
    · intro v h1 _
      rw [hf.2.2.2.2.2.1, if_neg]
      rintro ⟨l, hl, hv⟩
      exact h1 l (List.mem_of_mem_drop hl) hv
    · intro l hl; exact (h.c.backtrack hd).pres l hl
  have hroot := fun l => Pt.backtrack_root h.c.tr hd (l := l)
  have hH : ∀ (C : Cl) σ, Holds C x (p.backtrack level).1 σ ↔ Holds C x p σ := by
    intro C σ
    constructor
    · rintro ⟨a, b, c⟩
      rw [hlift] at a b
      exact ⟨a, fun l hl => b l ((hroot l).2 hl), c⟩
    · rintro ⟨a, b, c⟩
      refine ⟨?_, fun l hl => ?_, c⟩ <;> rw [hlift]
      · exact a
      · exact b l ((hroot l).1 hl)
  exact ⟨h.c.backtrack hd, h.wok, h.dbi, fun τ hτ => (hH _ _).2 (h.s1 τ hτ),
    fun σ hσ => h.s2 σ ((hH _ _).1 hσ), fun v g d b h1 h2 h3 => (hroot _).2 (h.unit v g d b h1 h2 h3), h.iso⟩

theorem _root_.Varisat.Solver.Prop2.backtrack (hc : CInv x.pres (cls bin db) p) (h : Prop2 bin db p) {level n : Nat}
    (hd : p.decisions[level]? = some n) : Prop2 bin db (p.backtrack level).1 :=
  ⟨h.b.backtrack hc hd (by simp), h.w.backtrack hc hd (by simp)⟩

end Core

/-- The root literals after enqueuing. -/
theorem Pt.root_enqueue {p : Pt} (hp : p.Ok) {m l : Lit} {r : Reason} (hu : p.value m.var = none)
    (h : (p.enqueue m r).Root l) : p.Root l ∨ (l = m ∧ p.curLevel = 0) := by
  obtain ⟨h1, h2⟩ := h
  by_cases hv : l.var = m.var
  · right
    have hlm : l = m := by
      rw [Pt.isTrue_iff, hv, Pt.enqueue_value_self] at h1
      refine Lit.ext_var_neg hv ?_
      cases h3 : l.isNeg <;> cases h4 : m.isNeg <;> simp_all
    refine ⟨hlm, ?_⟩
    subst hlm
    rcases h2 with ⟨k, hk, hl⟩ | h2
    · rw [Pt.at_enqueue] at hk
      rcases hk with hk | ⟨rfl, _⟩
      · have := hp.val l hk.mem
        rw [hu] at this; simp at this
      · rw [Pt.enqueue_decisions, lvl_all (fun d hd => Nat.le_of_lt (hp.dlt d hd))] at hl
        exact hl
    · simp [Pt.enqueue] at h2
  · left
    rw [Pt.isTrue_iff, Pt.enqueue_value_ne hv] at h1
    refine ⟨Pt.isTrue_iff.2 h1, ?_⟩
    rcases h2 with ⟨k, hk, hl⟩ | h2
    · rw [Pt.at_enqueue] at hk
      rcases hk with hk | ⟨_, rfl⟩
      · exact .inl ⟨k, hk, hl⟩
      · exact absurd rfl hv
    · rw [Pt.enqueue_node_ne hv] at h2
      exact .inr h2

theorem lift_enqueue {x : Vars} {p : Pt} {m : Lit} {r : Reason} (hm : x.pres m.var) (σ : Asg) :
    lift x (p.enqueue m r) σ = lift x p σ := by
  apply lift_congr
  intro v hv
  rw [Pt.enqueue_value_ne]
  rintro rfl; exact hv hm

namespace Core
variable {F F' : List (List Lit)} {ids : Nat → Nat} {bin : Lit → List Lit} {w : Wl} {db : Db α} {x : Vars}
  {p : Pt}

/-- Enqueuing a literal; in level 0 it becomes part of the formula. -/
theorem enqueue (h : Core F ids bin w db x p) {m : Lit} {r : Reason} (hu : p.value m.var = none)
    (hm : x.pres m.var)
    (hr : match r with
      | .unit => p.curLevel = 0
      | .binary y => (∃ j, p.At j y.neg) ∧ m ∈ bin y.neg
      | .long c => db.Live c ∧ ∃ rest, db.lits c = m :: rest ∧ ∀ y ∈ rest, ∃ j, p.At j y.neg)
    (h1 : ∀ τ, cnfSat τ F' → cnfSat τ F ∧ (p.curLevel = 0 → m.holds (lift x p (fun g => τ (ids g)))))
    (h2 : ∀ σ, (p.curLevel = 0 → m.holds (lift x p σ)) → ∀ τ, cnfSat τ F →
      (∀ g, x.Live g → τ (ids g) = σ g) → cnfSat τ F') :
    Core F' ids bin w db x (p.enqueue m r) := by
  have hroot : ∀ l, p.Root l → (p.enqueue m r).Root l := fun l hl => hl.enqueue hu
  refine ⟨h.c.enqueue hu hm ?_, h.wok, h.dbi, ?_, ?_, fun v g d b a1 a2 a3 => hroot _ (h.unit v g d b a1 a2 a3), h.iso⟩
  · cases r with
    | unit =>
      simp only at hr ⊢
      rw [lvl_all (fun d hd => Nat.le_of_lt (h.c.tr.dlt d hd))]; exact hr
    | binary y => exact hr
    | long c => exact hr
  · intro τ hτ
    obtain ⟨k1, k2⟩ := h1 τ hτ
    obtain ⟨a, b, c⟩ := h.s1 τ k1
    refine ⟨?_, ?_, c⟩
    · rw [lift_enqueue hm]; exact a
    · intro l hl
      rw [lift_enqueue hm]
      rcases Pt.root_enqueue h.c.tr hu hl with hl | ⟨rfl, hl0⟩
      · exact b l hl
      · exact k2 hl0
  · intro σ hσ
    obtain ⟨a, b, c⟩ := hσ
    rw [lift_enqueue hm] at a b
    obtain ⟨τ, t1, t2⟩ := h.s2 σ ⟨a, fun l hl => b l (hroot l hl), c⟩
    refine ⟨τ, h2 σ ?_ τ t1 t2, t2⟩
    intro h0
    apply b
    refine ⟨Pt.enqueue_isTrue_self, .inl ⟨p.trail.length, Pt.at_enqueue.2 (.inr ⟨rfl, rfl⟩), ?_⟩⟩
    rw [Pt.enqueue_decisions, lvl_all (fun d hd => Nat.le_of_lt (h.c.tr.dlt d hd))]; exact h0

theorem _root_.Varisat.Solver.Prop2.enqueue (hp : p.Ok) (h : Prop2 bin db p) {m : Lit} {r : Reason} (hu : p.value m.var = none) :
    Prop2 bin db (p.enqueue m r) := ⟨h.b.enqueue hp hu, h.w.enqueue hp hu⟩

end Core

/-! ### Decisions -/

theorem Pt.Ok.decide {p : Pt} (h : p.Ok) {m : Lit} (hu : p.value m.var = none)
    (hq : p.qhead = p.trail.length) : (p.newLevel.enqueue m .unit).Ok := by
  have hne : ∀ l ∈ p.trail, l.var ≠ m.var := fun l hl => Pt.mem_ne_of_unassigned h hu hl
  have hlv : ∀ k, k < p.trail.length → lvl (p.decisions ++ [p.trail.length]) k = lvl p.decisions k := by
    intro k hk
    rw [lvl_append]
    have : lvl [p.trail.length] k = 0 := lvl_none (by simpa using hk)
    omega
  constructor
  · intro l hl
    rw [Pt.enqueue_trail, List.mem_append, List.mem_singleton] at hl
    rcases hl with hl | rfl
    · rw [Pt.enqueue_value_ne (hne l hl)]; exact h.val l hl
    · simp
  · rw [Pt.enqueue_trail, List.map_append, List.nodup_append]
    refine ⟨h.nodup, by simp, ?_⟩
    simp only [List.map_cons, List.map_nil, List.mem_singleton]
    rintro a ha b rfl
    obtain ⟨l, hl, rfl⟩ := List.mem_map.1 ha
    exact hne l hl
  · intro k l hk
    rw [Pt.at_enqueue] at hk
    rcases hk with hk | ⟨rfl, rfl⟩
    · rw [Pt.enqueue_node_ne (hne l (Pt.At.mem (p := p) hk))]; exact h.depth k l hk
    · simp [Pt.enqueue]
  · intro k l hk
    rw [Pt.at_enqueue] at hk
    rcases hk with hk | ⟨rfl, rfl⟩
    · unfold Pt.level
      rw [Pt.enqueue_node_ne (hne l (Pt.At.mem (p := p) hk)), Pt.enqueue_decisions]
      have := h.level k l hk
      unfold Pt.level at this
      show (p.node l.var).level = lvl (p.decisions ++ [p.trail.length]) k
      rw [this, hlv k (Pt.At.lt (p := p) hk)]
    · rw [Pt.enqueue_level_self]
      show (p.decisions ++ [p.trail.length]).length = lvl (p.decisions ++ [p.trail.length]) p.trail.length
      rw [lvl_all]
      intro d hd
      rw [List.mem_append, List.mem_singleton] at hd
      rcases hd with hd | rfl
      · exact Nat.le_of_lt (h.dlt d hd)
      · exact Nat.le_refl _
  · intro v hv
    by_cases hvm : v = m.var
    · exact .inl ⟨m, by simp, hvm.symm⟩
    · rw [Pt.enqueue_value_ne hvm] at hv
      rw [Pt.enqueue_node_ne hvm]
      rcases h.off v hv with ⟨l, hl, hlv⟩ | h1
      · exact .inl ⟨l, by simp [hl, Pt.newLevel], hlv⟩
      · exact .inr h1
  · show (p.decisions ++ [p.trail.length]).Pairwise (· < ·)
    rw [List.pairwise_append]
    refine ⟨h.sorted, by simp, ?_⟩
    intro a ha b hb
    rw [List.mem_singleton] at hb
    subst hb
    exact h.dlt a ha
  · intro d hd
    have hd : d ∈ p.decisions ++ [p.trail.length] := hd
    rw [Pt.enqueue_trail, List.length_append]
    rw [List.mem_append, List.mem_singleton] at hd
    show d < p.trail.length + 1
    rcases hd with hd | rfl
    · have := h.dlt d hd; omega
    · omega
  · show p.qhead ≤ (p.trail ++ [m]).length
    rw [List.length_append]; have := h.qle; omega
  · intro d hd
    have hd : d ∈ p.decisions ++ [p.trail.length] := hd
    rw [List.mem_append, List.mem_singleton] at hd
    show d ≤ p.qhead
    rcases hd with hd | rfl
    · exact h.dq d hd
    · omega

theorem Pt.at_decide {p : Pt} {m : Lit} {k : Nat} {l : Lit} :
    (p.newLevel.enqueue m .unit).At k l ↔ p.At k l ∨ (k = p.trail.length ∧ l = m) :=
  Pt.at_enqueue (p := p.newLevel)

theorem Pt.done_decide {p : Pt} (h : p.Ok) {m l : Lit} :
    (p.newLevel.enqueue m .unit).Done l ↔ p.Done l := by
  unfold Pt.Done
  constructor
  · rintro ⟨k, hk, hat⟩
    rw [Pt.at_decide] at hat
    rcases hat with hat | ⟨rfl, rfl⟩
    · exact ⟨k, hk, hat⟩
    · have := h.qle
      have hk : p.trail.length < p.qhead := hk
      omega
  · rintro ⟨k, hk, hat⟩
    exact ⟨k, hk, Pt.at_decide.2 (.inl hat)⟩

theorem lvl_decide {p : Pt} {m : Lit} {k : Nat} (hk : k < p.trail.length) :
    lvl (p.newLevel.enqueue m .unit).decisions k = lvl p.decisions k := by
  show lvl (p.decisions ++ [p.trail.length]) k = _
  rw [lvl_append]
  have : lvl [p.trail.length] k = 0 := lvl_none (by simpa using hk)
  omega

theorem Pt.root_decide {p : Pt} (hp : p.Ok) {m l : Lit} (hu : p.value m.var = none) :
    (p.newLevel.enqueue m .unit).Root l ↔ p.Root l := by
  constructor
  · rintro ⟨h1, h2⟩
    by_cases hv : l.var = m.var
    · exfalso
      rcases h2 with ⟨k, hk, hl⟩ | h2
      · rw [Pt.at_decide] at hk
        rcases hk with hk | ⟨rfl, _⟩
        · have := hp.val l hk.mem
          rw [hv, hu] at this; simp at this
        · have h3 : 0 < lvl (p.newLevel.enqueue m .unit).decisions p.trail.length := by
            unfold lvl
            rw [List.countP_pos_iff]
            exact ⟨p.trail.length, by simp [Pt.newLevel], by simp⟩
          omega
      · rw [hv] at h2; simp [Pt.enqueue] at h2
    · rw [Pt.isTrue_iff, Pt.enqueue_value_ne hv] at h1
      refine ⟨Pt.isTrue_iff.2 h1, ?_⟩
      rcases h2 with ⟨k, hk, hl⟩ | h2
      · rw [Pt.at_decide] at hk
        rcases hk with hk | ⟨_, rfl⟩
        · rw [lvl_decide hk.lt] at hl
          exact .inl ⟨k, hk, hl⟩
        · exact absurd rfl hv
      · rw [Pt.enqueue_node_ne hv] at h2
        exact .inr h2
  · rintro ⟨h1, h2⟩
    refine ⟨Pt.enqueue_isTrue_mono (p := p.newLevel) hu h1, ?_⟩
    rcases h2 with ⟨k, h2, h3⟩ | h2
    · exact .inl ⟨k, Pt.at_decide.2 (.inl h2), by rw [lvl_decide h2.lt]; exact h3⟩
    · right
      rw [Pt.enqueue_node_ne]
      · exact h2
      · intro hv; rw [Pt.isTrue_iff, hv, hu] at h1; simp at h1

theorem CInv.decide {pres : Nat → Prop} {C : Cl} {p : Pt} (h : CInv pres C p) {m : Lit}
    (hu : p.value m.var = none) (hp : pres m.var) (hq : p.qhead = p.trail.length) :
    CInv pres C (p.newLevel.enqueue m .unit) := by
  have hatt : ∀ v, p.Att v → (p.newLevel.enqueue m .unit).Att v :=
    fun v hv => Pt.Att.enqueue (p := p.newLevel) hv
  have hreason : ∀ k l, p.At k l → (p.newLevel.enqueue m .unit).reason l.var = p.reason l.var := by
    intro k l hk
    exact Pt.enqueue_reason_of_assigned (p := p.newLevel) hu
      (by show p.value l.var ≠ none; rw [h.tr.val l hk.mem]; simp)
  constructor
  · exact h.tr.decide hu hq
  · exact h.len
  · exact h.nodup
  · exact fun c hc l hl => ⟨(h.vars c hc l hl).1, hatt _ (h.vars c hc l hl).2⟩
  · exact h.binSym
  · exact h.binNe
  · exact fun l y hy => ⟨(h.binVars l y hy).1, hatt _ (h.binVars l y hy).2⟩
  · intro l hl
    rw [Pt.enqueue_trail, List.mem_append, List.mem_singleton] at hl
    rcases hl with hl | rfl
    · exact h.pres l hl
    · exact hp
  · intro k l hk hkd
    rw [Pt.at_decide] at hk
    rcases hk with hk | ⟨rfl, rfl⟩
    · rw [hreason k l hk]
      have hkd : k ∈ p.decisions ++ [p.trail.length] := hkd
      rw [List.mem_append, List.mem_singleton] at hkd
      rcases hkd with hkd | rfl
      · exact h.dec k l hk hkd
      · exact absurd hk.lt (by omega)
    · simp
  · intro k l hk
    rw [Pt.at_decide] at hk
    rcases hk with hk | ⟨rfl, rfl⟩
    · have hr := h.rs k l hk
      unfold ReasonAt at *
      rw [hreason k l hk]
      cases hre : p.reason l.var with
      | unit =>
        simp only [hre] at hr ⊢
        rw [lvl_decide hk.lt]
        refine hr.imp (fun hr => ?_) id
        show k ∈ p.decisions ++ [p.trail.length]
        simp [hr]
      | binary y =>
        simp only [hre] at hr ⊢
        obtain ⟨⟨j, hj, hat⟩, hb⟩ := hr
        exact ⟨⟨j, hj, Pt.at_decide.2 (.inl hat)⟩, hb⟩
      | long c =>
        simp only [hre] at hr ⊢
        obtain ⟨hlive, rest, hc, hrest⟩ := hr
        refine ⟨hlive, rest, hc, fun y hy => ?_⟩
        obtain ⟨j, hj, hat⟩ := hrest y hy
        exact ⟨j, hj, Pt.at_decide.2 (.inl hat)⟩
    · unfold ReasonAt
      rw [Pt.enqueue_reason_self]
      left
      show p.trail.length ∈ p.decisions ++ [p.trail.length]
      simp

namespace Core
variable {F F' : List (List Lit)} {ids : Nat → Nat} {bin : Lit → List Lit} {w : Wl} {db : Db α} {x : Vars}
  {p : Pt}

/-- A decision. -/
theorem decide (h : Core F ids bin w db x p) {m : Lit} (hu : p.value m.var = none)
    (hm : x.pres m.var) (hq : p.qhead = p.trail.length) :
    Core F ids bin w db x (p.newLevel.enqueue m .unit) := by
  have hlift : ∀ σ, lift x (p.newLevel.enqueue m .unit) σ = lift x p σ := fun σ =>
    lift_enqueue (p := p.newLevel) hm σ
  have hroot := fun l => Pt.root_decide h.c.tr (l := l) hu
  have hH : ∀ (C : Cl) σ, Holds C x (p.newLevel.enqueue m .unit) σ ↔ Holds C x p σ := by
    intro C σ
    constructor
    · rintro ⟨a, b, c⟩
      rw [hlift] at a b
      exact ⟨a, fun l hl => b l ((hroot l).2 hl), c⟩
    · rintro ⟨a, b, c⟩
      refine ⟨?_, fun l hl => ?_, c⟩ <;> rw [hlift]
      · exact a
      · exact b l ((hroot l).1 hl)
  exact ⟨h.c.decide hu hm hq, h.wok, h.dbi, fun τ hτ => (hH _ _).2 (h.s1 τ hτ),
    fun σ hσ => h.s2 σ ((hH _ _).1 hσ), fun v g d b h1 h2 h3 => (hroot _).2 (h.unit v g d b h1 h2 h3), h.iso⟩

theorem _root_.Varisat.Solver.Prop2.decide (hp : p.Ok) (h : Prop2 bin db p) {m : Lit} (hu : p.value m.var = none) :
    Prop2 bin db (p.newLevel.enqueue m .unit) := by
  have hlev : ∀ v, p.value v ≠ none → (p.newLevel.enqueue m .unit).level v = p.level v :=
    fun v hv => Pt.enqueue_level_of_assigned (p := p.newLevel) hu hv
  have htr : ∀ l, p.isTrue l = true → (p.newLevel.enqueue m .unit).isTrue l = true :=
    fun l hl => Pt.enqueue_isTrue_mono (p := p.newLevel) hu hl
  constructor
  · intro l hl y hy
    rw [Pt.done_decide hp] at hl
    rcases h.b l hl y hy with ⟨h1, h2⟩ | h1
    · left
      refine ⟨htr _ h1, ?_⟩
      rw [hlev _ (by rw [Pt.isTrue_iff.1 h1]; simp), hlev _ (hl.assigned hp)]
      exact h2
    · exact h1.elim
  · intro c hc y hy hd
    rw [Pt.done_decide hp] at hd
    rcases h.w c hc y hy hd with ⟨t, h0, h1, h2⟩ | h1
    · left
      refine ⟨t, h0, htr _ h1, ?_⟩
      rw [hlev _ (by rw [Pt.isTrue_iff.1 h1]; simp), hlev _ (by simpa using hd.assigned hp)]
      exact h2
    · exact h1.elim

end Core
end Varisat.Solver
