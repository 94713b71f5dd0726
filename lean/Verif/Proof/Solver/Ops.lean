import Verif.Proof.Solver.Sizes
import Verif.Model.Solver.Exec
/-!
# The operations on variables
-/
namespace Varisat.Solver
open Api (Abs)

variable {α : Type} [LinearOrder α]
variable {F : List (List Lit)} {A : List Lit} {ids : Nat → Nat}

theorem Env.Ok.pick_mem {e : Env α} (h : e.Ok) {k n x : Nat} {l : List Nat} (hx : e.pick k n l = some x) : x ∈ l := by
  by_cases hl : l = []
  · rw [hl, h.1] at hx; cases hx
  · obtain ⟨y, h1, h2⟩ := h.2 k n l hl
    rw [hx] at h2
    obtain rfl := Option.some.inj h2
    exact h1

/-- The invariant without the assumptions. -/
structure Base (F : List (List Lit)) (A : List Lit) (ids : Nat → Nat) (s : St α) : Prop where
  v : VInv s.vars
  q : QInv s.vsids s.vars s.p
  fl : ∀ v, s.vflags v = false
  l0 : L0 s.p
  inj : ∀ g g', s.vars.Live g → s.vars.Live g' → ids g = ids g' → g = g'
  hidA : ∀ (g : Nat) (d : VarData), s.vars.data[g]? = some d → d.mode = .hide → d.assumed = false
  run : s.sat ≠ .unsat → Core F ids s.bins.byLit s.w s.db s.vars s.p ∧ Prop2 s.bins.byLit s.db s.p
  sat : s.sat = .sat → SatOk F A ids s.vars s.model

/-- The names agree. -/
structure Names (a : Abs) (ids : Nat → Nat) (x : Vars) : Prop where
  name : ∀ u, a.name u = (x.gfu.map u).map ids
  len : a.len = x.gfu.len
  lt : ∀ g, x.Live g → ids g < a.next
  occ : ∀ i, Occurs a.clauses a.assumptions i → i < a.next
  sz : Sizes a.next x

/-- What the operations on variables do not change. -/
structure Same (s s' : St α) : Prop where
  trail : s'.p.trail = s.p.trail
  decisions : s'.p.decisions = s.p.decisions
  qhead : s'.p.qhead = s.p.qhead
  eq : s' = { s with
    p := s'.p
    vsids := s'.vsids
    vars := s'.vars
    log := s'.log }

theorem Same.refl (s : St α) : Same s s := ⟨rfl, rfl, rfl, rfl⟩
theorem Same.trans {a b c : St α} (h : Same a b) (k : Same b c) : Same a c := by
  refine ⟨k.trail.trans h.trail, k.decisions.trans h.decisions, k.qhead.trans h.qhead, ?_⟩
  have h1 := h.eq
  have h2 := k.eq
  rw [h2]
  simp only
  rw [h1]

/-- The result of an operation that creates variables. -/
structure Grown (a : Abs) (ids : Nat → Nat) (s : St α) (b : Abs) (ids' : Nat → Nat) (s' : St α) : Prop where
  base : Base b.clauses b.assumptions ids' s'
  names : Names b ids' s'.vars
  more : VMore s.vars ids s'.vars ids'
  same : Same s s'
  clauses : b.clauses = a.clauses
  assumptions : b.assumptions = a.assumptions
  fresh : ∀ u g d, s.vars.gfu.map u = none → s'.vars.gfu.map u = some g → s'.vars.data[g]? = some d → d.mode = .sample ∧ d.assumed = false

theorem Grown.trans {a b c : Abs} {i j k : Nat → Nat} {s t u : St α} (h : Grown a i s b j t) (h' : Grown b j t c k u) :
    Grown a i s c k u := by
  refine ⟨h'.base, h'.names, h.more.trans h'.more, h.same.trans h'.same, h'.clauses.trans h.clauses,
    h'.assumptions.trans h.assumptions, ?_⟩
  intro v g d h1 h2 h3
  cases hg : t.vars.gfu.map v with
  | none => exact h'.fresh v g d hg h2 h3
  | some g' =>
    have := h'.more.gfu _ _ hg
    rw [h2] at this
    obtain rfl := Option.some.inj this
    obtain ⟨d', h4, h5, _⟩ := h.base.v.ulive _ _ hg
    have := h'.more.data g d' h4 h5
    rw [h3] at this
    obtain rfl := Option.some.inj this
    exact h.fresh v g d h1 hg h4

theorem Grown.refl {a : Abs} {s : St α} (h : Base a.clauses a.assumptions ids s) (hn : Names a ids s.vars) :
    Grown a ids s a ids s := ⟨h, hn, VMore.refl _ _, Same.refl _, rfl, rfl, fun _ _ _ h1 h2 _ => by rw [h1] at h2; cases h2⟩

theorem Base.log {s : St α} (h : Base F A ids s) (L : List ProofStep) : Base F A ids { s with log := L } :=
  ⟨h.v, h.q, h.fl, h.l0, h.inj, h.hidA, h.run, h.sat⟩

/-- A new global variable. -/
theorem Base.newGlobal {s : St α} (h : Base F A ids s) {u g i : Nat} (hg : ¬ s.vars.Live g) (hu : s.vars.gfu.map u = none)
    (hul : u ≤ s.vars.gfu.len) (ho : ¬ Occurs F A i) (hi : ∀ k, s.vars.Live k → ids k ≠ i) (L : List ProofStep) :
    Base F A (put ids g i) { s with
      vars := s.vars.newGlobal u g
      log := L } := by
  have hne : ∀ k, s.vars.Live k → k ≠ g := fun k hk he => hg (he ▸ hk)
  have hF : ∀ c ∈ F, ∀ l ∈ c, l.var ≠ i := fun c hc l hl he => ho (.inl ⟨c, hc, l, hl, he⟩)
  refine ⟨h.v.newGlobal hg hu hul, ⟨h.q.wf, h.q.count, h.q.pres, h.q.all⟩, h.fl, h.l0, ?_, ?_, ?_, ?_⟩
  · intro k k' hk hk' he
    rcases (Vars.newGlobal_live hg).1 hk with h1 | h1 <;> rcases (Vars.newGlobal_live hg).1 hk' with h2 | h2
    · rw [h1, h2]
    · rw [h1, put_same, put_ne _ _ (hne _ h2)] at he; exact absurd he.symm (hi _ h2)
    · rw [h2, put_same, put_ne _ _ (hne _ h1)] at he; exact absurd he (hi _ h1)
    · rw [put_ne _ _ (hne _ h1), put_ne _ _ (hne _ h2)] at he; exact h.inj _ _ h1 h2 he
  · intro k d hd hm
    rcases Vars.newGlobal_data hg hd with ⟨_, rfl⟩ | ⟨_, h1⟩ | ⟨_, rfl⟩
    · rfl
    · exact h.hidA k d h1 hm
    · rfl
  · intro hs
    obtain ⟨a, b⟩ := h.run hs
    exact ⟨a.newGlobal h.v hg hF hi, b⟩
  · intro hs
    obtain ⟨⟨τ, h1, h2, h3⟩, h4⟩ := h.sat hs
    constructor
    · refine ⟨put τ i ((s.model[g]?.join).getD false), (cnfSat_put _ hF).2 h1, ?_, ?_⟩
      · intro l hl
        have := h2 l hl
        unfold Lit.holds at *
        rw [put_ne _ _ (fun he => ho (.inr ⟨l, hl, he⟩))]
        exact this
      · intro k b hk hb
        rcases (Vars.newGlobal_live hg).1 hk with rfl | hk
        · have hb : s.model[k]? = some (some b) := hb
          rw [put_same, put_same, hb]; rfl
        · rw [put_ne _ _ (hne _ hk), put_ne _ _ (hi k hk)]
          exact h3 k b hk hb
    · intro k hk hoc
      rcases (Vars.newGlobal_live hg).1 hk with rfl | hk
      · rw [put_same] at hoc; exact absurd hoc ho
      · rw [put_ne _ _ (hne _ hk)] at hoc
        exact h4 k hk hoc

theorem St.nextGlobal_free {e : Env α} (he : e.Ok) {s : St α} (hv : VInv s.vars) : ¬ s.vars.Live (s.nextGlobal e) := by
  unfold St.nextGlobal
  cases hp : e.pick 0 s.log.length s.vars.globalFree with
  | none =>
    rintro ⟨d, h1, _⟩
    simp at h1
  | some g =>
    rintro ⟨d, h1, h2⟩
    obtain ⟨d', h3, h4⟩ := hv.gfree g (he.pick_mem hp)
    simp only [Option.getD_some] at h1
    rw [h3] at h1
    obtain rfl := Option.some.inj h1
    rw [h4] at h2; cases h2

theorem St.chooseGlobal_free {e : Env α} (he : e.Ok) {s : St α} (hv : VInv s.vars) (u : Nat) :
    ¬ s.vars.Live (s.chooseGlobal e u) := by
  unfold St.chooseGlobal
  cases hd : s.data? u with
  | none =>
    simp only
    rintro ⟨d, h1, _⟩
    unfold St.data? at hd
    rw [hd] at h1; cases h1
  | some d =>
    simp only
    cases hdel : d.deleted with
    | true =>
      rw [if_pos rfl]
      rintro ⟨d', h1, h2⟩
      unfold St.data? at hd
      rw [hd] at h1
      obtain rfl := Option.some.inj h1
      rw [hdel] at h2; cases h2
    | false => rw [if_neg (by simp)]; exact St.nextGlobal_free he hv

theorem St.chooseGlobal_lt {e : Env α} {s : St α} (u : Nat) : u < max s.vars.data.length (s.chooseGlobal e u + 1) := by
  unfold St.chooseGlobal
  cases hd : s.data? u with
  | none => simp only; omega
  | some d =>
    have := (List.getElem?_eq_some_iff.1 hd).1
    omega

/-- `global_from_user` for an index not above the watermark. -/
theorem St.globalFromUser1_ok {e : Env α} (he : e.Ok) {s : St α} {a : Abs} (h : Base a.clauses a.assumptions ids s)
    (hn : Names a ids s.vars) {u : Nat} (hu : u ≤ s.vars.gfu.len) (sampling : Bool)
    (hs : sampling = true → ∀ g d, s.vars.gfu.map u = some g → s.vars.data[g]? = some d → d.mode = .sample) :
    ∃ s' g ids', s.globalFromUser1 e u sampling = .ok (s', g) ∧ Grown a ids s (a.create u) ids' s' ∧
      s'.vars.gfu.map u = some g ∧ s'.p = s.p ∧ s'.vars.gfs = s.vars.gfs ∧
      (∀ d, s'.vars.data[g]? = some d → s.vars.gfu.map u = none → d = .userDefault) ∧
      (∀ k, k ≠ u → s'.vars.gfu.map k = s.vars.gfu.map k) ∧ s'.vars.gfu.len = max s.vars.gfu.len (u + 1) := by
  unfold St.globalFromUser1
  cases hg : s.vars.gfu.map u with
  | some g =>
    have hc : a.create u = a := by
      unfold Abs.create; rw [hn.name, hg]; rfl
    simp only
    rw [if_neg, hc]
    · exact ⟨s, g, ids, rfl, Grown.refl h hn, hg, rfl, rfl, fun _ _ h => by simp at h, fun _ _ => rfl, by
        have := h.v.ulen u g hg; omega⟩
    · rintro ⟨h1, h2⟩
      obtain ⟨d, h3, _⟩ := h.v.ulive u g hg
      apply h2
      unfold St.data?
      rw [h3]
      simp only [Option.map_some]
      rw [hs h1 g d hg h3]
  | none =>
    obtain ⟨G, hG⟩ : ∃ G, G = s.chooseGlobal e u := ⟨_, rfl⟩
    have hlive : ¬ s.vars.Live G := by rw [hG]; exact St.chooseGlobal_free he h.v u
    have hc : a.create u = { a with
        name := fun v => if v = u then some a.next else a.name v
        next := a.next + 1
        len := max a.len (u + 1) } := by
      unfold Abs.create; rw [if_pos]; rw [hn.name, hg]; rfl
    have hocc : ¬ Occurs a.clauses a.assumptions a.next := fun ho => absurd (hn.occ _ ho) (by omega)
    have hfr : ∀ k, s.vars.Live k → ids k ≠ a.next := fun k hk he => by have := hn.lt k hk; omega
    have hb := h.newGlobal (i := a.next) hlive hg hu hocc hfr (s.log ++ [.userVarName G (some u)])
    have hm := VMore.newGlobal (x := s.vars) hlive hg ids a.next
    simp only
    rw [← hG]
    refine ⟨{ s with
      vars := s.vars.newGlobal u G
      log := s.log ++ [.userVarName G (some u)] }, G, put ids G a.next, rfl, ⟨?_, ?_, hm, ⟨rfl, rfl, rfl, rfl⟩, ?_, ?_, ?_⟩, ?_, rfl, rfl, ?_, ?_, rfl⟩
    · rw [hc]; exact hb
    · rw [hc]
      refine ⟨?_, ?_, ?_, ?_, ?_⟩
      · intro v
        show (if v = u then some a.next else a.name v) = ((if v = u then some G else s.vars.gfu.map v)).map _
        by_cases hv : v = u
        · rw [if_pos hv, if_pos hv, Option.map_some, put_same]
        · rw [if_neg hv, if_neg hv, hn.name]
          cases hk : s.vars.gfu.map v with
          | none => rfl
          | some k =>
            obtain ⟨d, h1, h2, _⟩ := h.v.ulive v k hk
            simp only [Option.map_some]
            rw [put_ne]
            rintro rfl; exact hlive ⟨d, h1, h2⟩
      · show max a.len (u + 1) = max s.vars.gfu.len (u + 1)
        rw [hn.len]
      · intro k hk
        show put ids G a.next k < a.next + 1
        rcases (Vars.newGlobal_live hlive).1 hk with rfl | h1
        · rw [put_same]; omega
        · rw [put_ne _ _ (by rintro rfl; exact hlive h1)]; have := hn.lt k h1; omega
      · intro i hi; have := hn.occ i hi; exact Nat.lt_succ_of_lt this
      · obtain ⟨z1, z2, z3⟩ := hn.sz
        have hGl : G ≤ s.vars.data.length := by
          rw [hG]
          refine St.chooseGlobal_le (fun _ _ _ _ => he.pick_mem) (fun g hg => ?_) (by omega)
          obtain ⟨d, h1, _⟩ := h.v.gfree g hg
          exact (List.getElem?_eq_some_iff.1 h1).1
        have hd : (s.vars.newGlobal u G).data.length = max s.vars.data.length (G + 1) := setUserDefault_length _ _
        have hlt : u < max s.vars.data.length (G + 1) := by rw [hG]; exact St.chooseGlobal_lt u
        refine ⟨?_, ?_, ?_⟩
        · rw [hd]; show max s.vars.gfu.len (u + 1) ≤ _; omega
        · rw [hd]; show s.vars.gfs.len ≤ _; omega
        · rw [hd]; show _ ≤ a.next + 1; omega
    · rw [hc]
    · rw [hc]
    · intro k j d h1 h2 h3
      have h2 : (if k = u then some G else s.vars.gfu.map k) = some j := h2
      by_cases hk : k = u
      · rw [if_pos hk] at h2
        obtain rfl := Option.some.inj h2
        have : (s.vars.newGlobal u G).data[G]? = some .userDefault := Vars.newGlobal_self
        rw [this] at h3
        obtain rfl := Option.some.inj h3
        exact ⟨rfl, rfl⟩
      · rw [if_neg hk, h1] at h2; cases h2
    · show (if u = u then some G else _) = some G
      rw [if_pos rfl]
    · intro d hd _
      have : (s.vars.newGlobal u G).data[G]? = some .userDefault := Vars.newGlobal_self
      rw [this] at hd
      exact (Option.some.inj hd).symm
    · intro k hk
      show (if k = u then some G else s.vars.gfu.map k) = _
      rw [if_neg hk]

/-- The loop that creates the skipped indices. -/
theorem St.fillUsers_ok {e : Env α} (he : e.Ok) : ∀ (n : Nat) {s : St α} {a : Abs} {ids : Nat → Nat},
    Base a.clauses a.assumptions ids s → Names a ids s.vars →
    ∃ s' ids', St.fillUsers e n s.vars.gfu.len s = .ok s' ∧
      Grown a ids s ((List.range' a.len n).foldl Abs.create a) ids' s' ∧ s'.p = s.p ∧ s'.vars.gfs = s.vars.gfs ∧
      (∀ k, k < s.vars.gfu.len ∨ s.vars.gfu.len + n ≤ k → s'.vars.gfu.map k = s.vars.gfu.map k) ∧
      s'.vars.gfu.len = s.vars.gfu.len + n
  | 0, s, a, ids, h, hn => ⟨s, ids, rfl, Grown.refl h hn, rfl, rfl, fun _ _ => rfl, rfl⟩
  | n + 1, s, a, ids, h, hn => by
    obtain ⟨s1, g, ids1, e1, e2, e3, e4, e5, e6, e7, e8⟩ := St.globalFromUser1_ok he h hn (Nat.le_refl _) false (by simp)
    have hlen : s1.vars.gfu.len = s.vars.gfu.len + 1 := by rw [e8]; omega
    have hal : (a.create s.vars.gfu.len).len = a.len + 1 := by rw [e2.names.len, hlen, hn.len]
    obtain ⟨s2, ids2, f1, f2, f3, f4, f5, f6⟩ := St.fillUsers_ok he n e2.base e2.names
    refine ⟨s2, ids2, ?_, ?_, f3.trans e4, f4.trans e5, ?_, ?_⟩
    · rw [St.fillUsers, e1, ok_bind]
      simp only
      rw [hlen] at f1; exact f1
    · rw [List.range'_succ, List.foldl_cons]
      rw [hal] at f2
      rw [hn.len] at f2 ⊢
      exact e2.trans f2
    · intro k hk
      rw [f5 k (by rw [hlen]; omega), e7 k (by omega)]
    · rw [f6, hlen]; omega

/-- `global_from_user`. -/
theorem St.globalFromUser_ok {e : Env α} (he : e.Ok) {s : St α} {a : Abs} (h : Base a.clauses a.assumptions ids s)
    (hn : Names a ids s.vars) (u : Nat) (sampling : Bool)
    (hs : sampling = true → ∀ g d, s.vars.gfu.map u = some g → s.vars.data[g]? = some d → d.mode = .sample) :
    ∃ s' g ids', s.globalFromUser e u sampling = .ok (s', g) ∧ Grown a ids s (a.ensure u) ids' s' ∧
      s'.vars.gfu.map u = some g ∧ s'.p = s.p ∧ s'.vars.gfs = s.vars.gfs ∧
      (∀ d, s'.vars.data[g]? = some d → s.vars.gfu.map u = none → d = .userDefault) := by
  obtain ⟨s1, ids1, e1, e2, e3, e4, e5, e6⟩ := St.fillUsers_ok he (u - s.vars.gfu.len) h hn
  have hsame : s1.vars.gfu.map u = s.vars.gfu.map u := e5 u (by omega)
  obtain ⟨s2, g, ids2, f1, f2, f3, f4, f5, f6, f7, f8⟩ := St.globalFromUser1_ok he e2.base e2.names (u := u) (by omega) sampling (by
    intro h1 g d h2 h3
    rw [hsame] at h2
    obtain ⟨d', h4, h5, _⟩ := h.v.ulive u g h2
    have := e2.more.data g d' h4 h5
    rw [h3] at this
    obtain rfl := Option.some.inj this
    exact hs h1 g d h2 h4)
  refine ⟨s2, g, ids2, ?_, ?_, f3, f4.trans e3, f5.trans e4, ?_⟩
  · unfold St.globalFromUser
    rw [e1, ok_bind]; exact f1
  · unfold Abs.ensure
    rw [hn.len] at e2 f2 ⊢
    exact e2.trans f2
  · intro d hd hu
    exact f6 d hd (hsame.trans hu)

/-- A new solver variable. -/
theorem St.nextSolver_free {e : Env α} (he : e.Ok) {s : St α} (hv : VInv s.vars) :
    s.vars.gfs.map (s.nextSolver e) = none ∧ s.nextSolver e ≤ s.vars.gfs.len := by
  unfold St.nextSolver
  cases hp : e.pick 1 s.log.length s.vars.solverFree with
  | none =>
    simp only [Option.getD_none, Nat.le_refl, and_true]
    cases hc : s.vars.gfs.map s.vars.gfs.len with
    | none => rfl
    | some g => exact absurd (hv.slen _ g hc) (by omega)
  | some v =>
    have := (hv.sfree v).1 (he.pick_mem hp)
    simp only [Option.getD_some]
    exact ⟨this.2, Nat.le_of_lt this.1⟩

/-- A new solver variable is only created if all are in use. -/
theorem St.nextSolver_full {e : Env α} (he : e.Ok) {s : St α} (hv : VInv s.vars) (h : s.nextSolver e = s.vars.gfs.len) :
    ∀ w, w < s.vars.gfs.len → s.vars.pres w := by
  intro w hw
  by_cases hf : s.vars.solverFree = []
  · unfold Vars.pres
    cases hc : s.vars.gfs.map w with
    | some g => rfl
    | none => have := (hv.sfree w).2 ⟨hw, hc⟩; rw [hf] at this; cases this
  · exfalso
    obtain ⟨y, h1, h2⟩ := he.2 1 s.log.length _ hf
    unfold St.nextSolver at h
    rw [h2] at h
    have h3 : y = s.vars.gfs.len := h
    have := ((hv.sfree y).1 h1).1
    omega

theorem setVarCount_wf {ar : Arith α} {q : Vsids α} (h : Vsids.WF q) {n : Nat} (hn : q.count ≤ n) :
    Vsids.WF (q.setVarCount ar n) ∧ ∀ v, (q.setVarCount ar n).Avail v ↔ q.Avail v := by
  have hpos : ∀ v, (q.setVarCount ar n).position v = if v < q.count then q.position v else none := fun v => rfl
  refine ⟨?_, fun v => ?_⟩
  · constructor
    · intro k hk
      obtain ⟨h1, h2, h3⟩ := h.heap k hk
      refine ⟨Nat.lt_of_lt_of_le h1 hn, ?_, h3⟩
      have : (q.setVarCount ar n).position (q.heap k) = some k := by rw [hpos, if_pos h1]; exact h2
      exact this
    · intro v p hv hp
      rw [hpos] at hp
      by_cases hc : v < q.count
      · rw [if_pos hc] at hp; exact h.pos v p hv hp
      · rw [if_neg hc] at hp; cases hp
  · unfold Vsids.Avail
    rw [hpos]
    by_cases hc : v < q.count
    · rw [if_pos hc]
    · rw [if_neg hc]
      constructor
      · intro h; cases h
      · intro h'; exact absurd (Vsids.avail_lt h h') hc


/-- `solver_from_global`. -/
theorem St.solverFromGlobal_ok {e : Env α} (he : e.Ok) {s : St α} {a : Abs} (h : Base a.clauses a.assumptions ids s)
    (hn : Names a ids s.vars) {g : Nat} (hg : s.vars.Live g) :
    ∃ s' v, s.solverFromGlobal e g = .ok (s', v) ∧ Grown a ids s a ids s' ∧ s'.vars.gfs.map v = some g ∧
      s'.vars.data = s.vars.data ∧ s'.vars.gfu = s.vars.gfu := by
  unfold St.solverFromGlobal
  cases hs : s.vars.sfg.map g with
  | some v => exact ⟨s, v, rfl, Grown.refl h hn, (h.v.gs g v).1 hs, rfl, rfl⟩
  | none =>
    simp only
    obtain ⟨hv, hvl⟩ := St.nextSolver_free he h.v
    have hful := St.nextSolver_full he h.v
    generalize s.nextSolver e = v at *
    obtain ⟨d, hd, hdel⟩ := hg
    have hsl : max s.vars.gfs.len (v + 1) ≤ s.vars.data.length := by
      have := hn.sz.slen
      rcases Nat.lt_or_ge v s.vars.gfs.len with q | q
      · omega
      · have := h.v.spare hs (List.getElem?_eq_some_iff.1 hd).1 (hful (by omega))
        omega
    have hnp : ¬ s.vars.pres v := by unfold Vars.pres; rw [hv]; simp
    have hlen : (s.vars.gfs.insert g v).len = max s.vars.gfs.len (v + 1) := rfl
    -- the decision queue
    obtain ⟨Q, hQ⟩ : ∃ Q, Q = (if (s.vars.gfs.insert g v).len > s.vars.gfs.len then
      s.vsids.setVarCount e.ar (s.vars.gfs.insert g v).len else s.vsids) := ⟨_, rfl⟩
    have hQw : Vsids.WF Q ∧ Q.count = (s.vars.gfs.insert g v).len ∧ ∀ k, Q.Avail k ↔ s.vsids.Avail k := by
      rw [hQ]
      by_cases hc : (s.vars.gfs.insert g v).len > s.vars.gfs.len
      · rw [if_pos hc]
        obtain ⟨h1, h2⟩ := setVarCount_wf (ar := e.ar) h.q.wf (n := (s.vars.gfs.insert g v).len) (by rw [h.q.count]; omega)
        exact ⟨h1, rfl, h2⟩
      · rw [if_neg hc]
        exact ⟨h.q.wf, by rw [h.q.count]; omega, fun _ => Iff.rfl⟩
    rw [← hQ]
    obtain ⟨q1, q2, q3⟩ := hQw
    have hnav : ¬ Q.Avail v := fun hav => hnp (h.q.pres v ((q3 v).1 hav))
    have hpos : (Q.position v).isNone = true := by
      unfold Vsids.Avail at hnav
      simpa using hnav
    have hreset : Q.reset e.ar v = some { Q with activity := Vsids.put Q.activity v e.ar.zero } := by
      unfold Vsids.reset; rw [if_pos hpos]
    have hQ2 : Vsids.WF ({ Q with activity := Vsids.put Q.activity v e.ar.zero } : Vsids α) := ⟨q1.heap, q1.pos⟩
    obtain ⟨R, hR⟩ : ∃ R, R = (if d.unit.isNone then
      ({ Q with activity := Vsids.put Q.activity v e.ar.zero } : Vsids α).makeAvailable v
      else ({ Q with activity := Vsids.put Q.activity v e.ar.zero } : Vsids α)) := ⟨_, rfl⟩
    have hRw : Vsids.WF R ∧ R.count = Q.count ∧ ∀ k, R.Avail k ↔ (k = v ∧ d.unit = none) ∨ s.vsids.Avail k := by
      rw [hR]
      cases hu : d.unit with
      | none =>
        simp only [Option.isNone_none, if_true]
        obtain ⟨h1, h2, h3⟩ := Vsids.makeAvailable_wf hQ2 (var := v) (by
          show v < Q.count
          rw [q2, hlen]; omega)
        refine ⟨h1, h2, fun k => ?_⟩
        rw [h3, ← q3]
        simp only [and_true]
        exact Iff.rfl
      | some b =>
        rw [if_neg (by simp)]
        refine ⟨hQ2, rfl, fun k => ?_⟩
        rw [← q3]
        simp only [reduceCtorEq, and_false, false_or]
        exact Iff.rfl
    obtain ⟨r1, r2, r3⟩ := hRw
    have hinit : St.initSolverVar e { s with
        vsids := Q
        vars := s.vars.newSolver v g } v g = .ok { s with
          vsids := R
          vars := s.vars.newSolver v g
          p := s.p.initVar v d.unit } := by
      unfold St.initSolverVar
      have : ({ s with
        vsids := Q
        vars := s.vars.newSolver v g } : St α).data? g = some d := hd
      rw [this]
      simp only
      rw [hreset]
      simp only
      rw [hR]
      rfl
    refine ⟨{ s with
          vsids := R
          vars := s.vars.newSolver v g
          p := s.p.initVar v d.unit
          log := s.log ++ [.solverVarName g (some v)] }, v, ?_, ?_, ?_, ?_, ?_⟩
    · have := hinit
      unfold Vars.newSolver at this
      rw [this, ok_bind]
      rfl
    · obtain ⟨i1, i2, i3, i4, i5, i6, i7, i8⟩ := Pt.initVar_fields s.p v d.unit
      refine ⟨⟨h.v.newSolver ⟨d, hd, hdel⟩ hs hv hvl, ⟨r1, r2.trans q2, ?_, ?_⟩, h.fl, ?_, h.inj, h.hidA, ?_, fun hs => ⟨(h.sat hs).val, (h.sat hs).all⟩⟩,
        ⟨hn.name, hn.len, hn.lt, hn.occ, hn.sz.ulen, hsl, hn.sz.dlen⟩, VMore.newSolver hv ids, ⟨i1, i2, i3, rfl⟩, rfl, rfl, fun _ _ _ h1 h2 _ => by
          have h2 : s.vars.gfu.map _ = some _ := h2
          rw [h1] at h2; cases h2⟩
      · intro k hk
        show ((if k = v then some g else s.vars.gfs.map k)).isSome = true
        by_cases hkv : k = v
        · rw [if_pos hkv]; rfl
        · rw [if_neg hkv]
          rcases (r3 k).1 hk with h1 | h1
          · exact absurd h1.1 hkv
          · exact h.q.pres k h1
      · intro k hk hval
        have hval : (s.p.initVar v d.unit).value k = none := hval
        rw [i4] at hval
        by_cases hkv : k = v
        · rw [hkv, put_same] at hval
          exact (r3 k).2 (.inl ⟨hkv, hval⟩)
        · rw [put_ne _ _ hkv] at hval
          refine (r3 k).2 (.inr (h.q.all k ?_ hval))
          have hk : ((if k = v then some g else s.vars.gfs.map k)).isSome = true := hk
          rw [if_neg hkv] at hk; exact hk
      · show L0 (s.p.initVar v d.unit)
        unfold L0; rw [i2, i3]; exact h.l0
      · intro hsat
        obtain ⟨c1, c2⟩ := h.run hsat
        exact ⟨c1.newSolver hv hd hdel, c2.initVar c1.c hnp d.unit⟩
    · show (if v = v then some g else _) = some g
      rw [if_pos rfl]
    · rfl
    · rfl

/-- The user variables that are in use may be used in clauses and assumptions. -/
def SampleOk (x : Vars) (ls : List Lit) : Prop :=
  ∀ l ∈ ls, ∀ (g : Nat) (d : VarData), x.gfu.map l.var = some g → x.data[g]? = some d → d.mode = .sample

theorem SampleOk.grown {a b : Abs} {i j : Nat → Nat} {s t : St α} {ls : List Lit} (h : SampleOk s.vars ls) (hv : VInv s.vars)
    (hm : Grown a i s b j t) : SampleOk t.vars ls := by
  intro l hl g d h1 h2
  cases hg : s.vars.gfu.map l.var with
  | none => exact (hm.fresh _ g d hg h1 h2).1
  | some g' =>
    have := hm.more.gfu _ _ hg
    rw [h1] at this
    obtain rfl := Option.some.inj this
    obtain ⟨d', h4, h5, _⟩ := hv.ulive _ _ hg
    have := hm.more.data g d' h4 h5
    rw [h2] at this
    obtain rfl := Option.some.inj this
    exact h l hl g d hg h4

/-- `solver_from_user`. -/
theorem St.solverFromUser_ok {e : Env α} (he : e.Ok) {s : St α} {a : Abs} (h : Base a.clauses a.assumptions ids s)
    (hn : Names a ids s.vars) (l : Lit) (hs : SampleOk s.vars [l]) :
    ∃ s' v g ids', s.solverFromUser e l.var true = .ok (s', v) ∧ Grown a ids s (a.ensure l.var) ids' s' ∧
      s'.vars.gfs.map v = some g ∧ s'.vars.gfu.map l.var = some g := by
  obtain ⟨s1, g, ids1, e1, e2, e3, e4, e5, e6⟩ := St.globalFromUser_ok he h hn l.var true (fun _ g d => hs l (by simp) g d)
  obtain ⟨d, hd, hdel, _⟩ := e2.base.v.ulive _ _ e3
  obtain ⟨s2, v, f1, f2, f3, f4, f5⟩ := St.solverFromGlobal_ok he e2.base e2.names ⟨d, hd, hdel⟩
  refine ⟨s2, v, g, ids1, ?_, e2.trans f2, f3, by rw [f5]; exact e3⟩
  unfold St.solverFromUser
  rw [e1, ok_bind]; exact f1

/-- The solver literal belongs to the user literal. -/
def LitOk (x : Vars) (l m : Lit) : Prop :=
  ∃ g, x.gfu.map l.var = some g ∧ x.gfs.map m.var = some g ∧ m.isNeg = l.isNeg

theorem LitOk.more {x x' : Vars} {i i' : Nat → Nat} (h : VMore x i x' i') {l m : Lit} (hl : LitOk x l m) : LitOk x' l m := by
  obtain ⟨g, h1, h2, h3⟩ := hl
  exact ⟨g, h.gfu _ _ h1, h.gfs _ _ h2, h3⟩

/-- `solver_from_user_lits`. -/
theorem St.solverFromUserLits_ok {e : Env α} (he : e.Ok) : ∀ (ls : List Lit) {s : St α} {a : Abs} {ids : Nat → Nat},
    Base a.clauses a.assumptions ids s → Names a ids s.vars → SampleOk s.vars ls →
    ∃ s' ms ids', St.solverFromUserLits e true ls s = .ok (s', ms) ∧ Grown a ids s (a.ensureLits ls) ids' s' ∧
      List.Forall₂ (LitOk s'.vars) ls ms ∧ SampleOk s'.vars ls
  | [], s, a, ids, h, hn, hs => ⟨s, [], ids, rfl, Grown.refl h hn, .nil, hs⟩
  | l :: ls, s, a, ids, h, hn, hs => by
    obtain ⟨s1, v, g, ids1, e1, e2, e3, e4⟩ := St.solverFromUser_ok he h hn l (fun m hm => hs m (by simp_all))
    have hs1 := hs.grown h.v e2
    obtain ⟨s2, ms, ids2, f1, f2, f3, f4⟩ := St.solverFromUserLits_ok he ls e2.base e2.names (fun m hm => hs1 m (by simp [hm]))
    refine ⟨s2, Lit.mk' v (!l.isNeg) :: ms, ids2, ?_, ?_, .cons ?_ f3, ?_⟩
    · rw [St.solverFromUserLits, e1, ok_bind]
      simp only
      rw [f1, ok_bind]; rfl
    · exact e2.trans f2
    · exact ⟨g, f2.more.gfu _ _ e4, by simpa using f2.more.gfs _ _ e3, by simp⟩
    · exact hs1.grown e2.base.v f2

theorem St.nextUser_lt {e : Env α} {s : St α} (he : e.Ok) {x : Vars} (hv : VInv s.vars) (hx : s.vars = x) (hl : x.gfu.len ≤ x.data.length) {g : Nat} (hg : x.ufg.map g = none)
    (hgl : g < x.data.length) : x.gfu.map (s.nextUser e) = none ∧ s.nextUser e ≤ x.gfu.len ∧ s.nextUser e < x.data.length := by
  subst hx
  unfold St.nextUser
  cases hp : e.pick 2 s.log.length s.vars.userFree with
  | some u =>
    have := (hv.ufree u).1 (he.pick_mem hp)
    exact ⟨this.2, Nat.le_of_lt this.1, Nat.lt_of_lt_of_le this.1 hl⟩
  | none =>
    have hn : s.vars.gfu.map s.vars.gfu.len = none := by
      cases hc : s.vars.gfu.map s.vars.gfu.len with
      | none => rfl
      | some k => exact absurd (hv.ulen _ _ hc) (by omega)
    refine ⟨hn, Nat.le_refl _, ?_⟩
    show s.vars.gfu.len < _
    refine hv.user_room hg hgl fun u hu => ?_
    cases hc : s.vars.gfu.map u with
    | some k => rfl
    | none =>
      exfalso
      have hm : u ∈ s.vars.userFree := (hv.ufree u).2 ⟨hu, hc⟩
      obtain ⟨y, _, hy⟩ := he.2 2 s.log.length s.vars.userFree (by intro hc; rw [hc] at hm; cases hm)
      rw [hp] at hy; cases hy

end Varisat.Solver
