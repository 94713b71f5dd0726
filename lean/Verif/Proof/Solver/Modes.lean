import Verif.Proof.Solver.Calls
/-!
# The calls of the public interface: sampling modes and hidden variables
-/
namespace Varisat.Solver
open Api (Abs)

variable {α : Type} [LinearOrder α]
variable {F F' : List (List Lit)} {A : List Lit} {ids : Nat → Nat}

/-- Other user names and modes of the same variables. -/
theorem Inv.rename {a b : Abs} {s : St α} (h : Inv a ids s) {x : Vars} (hv : VInv x) (hg : x.gfs = s.vars.gfs)
    (hd1 : ∀ (g : Nat) (d' : VarData), x.data[g]? = some d' → ∃ d : VarData, s.vars.data[g]? = some d ∧ d'.deleted = d.deleted ∧
      d'.unit = d.unit ∧ (d'.isolated = true → d.isolated = true))
    (hd2 : ∀ (g : Nat) (d : VarData), s.vars.data[g]? = some d → ∃ d' : VarData, x.data[g]? = some d' ∧ d'.deleted = d.deleted ∧
      d'.unit = d.unit)
    (hh : ∀ (g : Nat) (d : VarData), x.data[g]? = some d → d.mode = .hide → d.assumed = false)
    (ha : AsmOk x s.asm.lits) (hb1 : b.clauses = a.clauses) (hb2 : b.assumptions = a.assumptions)
    (hn : ∀ u, b.name u = (x.gfu.map u).map ids) (hl : b.len = x.gfu.len) (hnx : b.next = a.next) (hz : Sizes a.next x) (L : List ProofStep) :
    Inv b ids { s with
      vars := x
      log := L } := by
  have hlive : ∀ g, x.Live g → s.vars.Live g := by
    rintro g ⟨d', h1, h2⟩
    obtain ⟨d, h3, h4, _⟩ := hd1 g d' h1
    exact ⟨d, h3, by rw [← h4]; exact h2⟩
  have hpres : x.pres = s.vars.pres := by funext v; unfold Vars.pres; rw [hg]
  refine ⟨⟨hv, ⟨h.b.q.wf, ?_, ?_, ?_⟩, h.b.fl, h.b.l0, ?_, hh, ?_, ?_⟩, ⟨hn, hl, ?_, ?_, hnx ▸ hz⟩, ha, ?_, ?_, ?_⟩
  · show _ = x.gfs.len; rw [hg]; exact h.b.q.count
  · show ∀ v, _ → x.pres v; rw [hpres]; exact h.b.q.pres
  · show ∀ v, x.pres v → _; rw [hpres]; exact h.b.q.all
  · intro g g' k1 k2; exact h.b.inj g g' (hlive g k1) (hlive g' k2)
  · intro hs
    obtain ⟨c, p2⟩ := h.b.run hs
    rw [hb1]
    exact ⟨c.vars (by rw [hg]) hd1 hd2, p2⟩
  · intro hs
    obtain ⟨⟨τ, t1, t2, t3⟩, t4⟩ := h.b.sat hs
    rw [hb1, hb2]
    exact ⟨⟨τ, t1, t2, fun g b k1 k2 => t3 g b (hlive g k1) k2⟩, fun g k1 k2 => t4 g (hlive g k1) k2⟩
  · intro g hgl; rw [hnx]; exact h.n.lt g (hlive g hgl)
  · rw [hb1, hb2, hnx]; exact h.n.occ
  · intro hs
    obtain ⟨k1, k2⟩ := h.as hs
    rw [hb1, hb2]
    exact ⟨k1, k2.congr (fun l _ => by show x.gfs.map _ = _; rw [hg])⟩
  · rw [hb1]; exact h.unsat
  · rw [hb1, hb2]; exact h.under

/-- Deleting a variable without names. -/
theorem Inv.drop {a : Abs} {s : St α} (h : Inv a ids s) {g : Nat} {d : VarData} (hd : s.vars.data[g]? = some d)
    (hu : s.vars.ufg.map g = none) (hs : s.vars.sfg.map g = none) (L : List ProofStep) :
    Inv a ids { s with
      vars := s.vars.drop g d
      log := L } := by
  have hlive : ∀ k, (s.vars.drop g d).Live k → s.vars.Live k := fun k hk => ((Vars.drop_live hd).1 hk).2
  refine ⟨⟨h.b.v.drop hd hu hs, ⟨h.b.q.wf, h.b.q.count, h.b.q.pres, h.b.q.all⟩, h.b.fl, h.b.l0, ?_, ?_, ?_, ?_⟩,
    ⟨h.n.name, h.n.len, fun k hk => h.n.lt k (hlive k hk), h.n.occ, h.n.sz.set⟩, h.asm.drop h.b.v hd hs, fun k => ⟨(h.as k).1, (h.as k).2.congr (fun _ _ => rfl)⟩, h.unsat, h.under⟩
  · intro k k' k1 k2; exact h.b.inj k k' (hlive k k1) (hlive k' k2)
  · intro k e k1 k2
    change (s.vars.drop g d).data[k]? = some e at k1
    rw [Vars.drop_get hd] at k1
    by_cases hk : k = g
    · rw [if_pos hk] at k1
      obtain rfl := Option.some.inj k1
      exact h.b.hidA g d hd k2
    · rw [if_neg hk] at k1; exact h.b.hidA k e k1 k2
  · intro hs'
    obtain ⟨c, p2⟩ := h.b.run hs'
    exact ⟨c.drop h.b.v hd hs, p2⟩
  · intro hs'
    obtain ⟨⟨τ, t1, t2, t3⟩, t4⟩ := h.b.sat hs'
    exact ⟨⟨τ, t1, t2, fun g b k1 k2 => t3 g b (hlive g k1) k2⟩, fun g k1 k2 => t4 g (hlive g k1) k2⟩

/-- The variables with another mode for one of them. -/
def Vars.withMode (x : Vars) (g : Nat) (d : VarData) (m : Mode) : Vars := { x with data := x.data.set g { d with mode := m } }

theorem Vars.withMode_data {x : Vars} {g : Nat} {d : VarData} {m : Mode} (hd : x.data[g]? = some d) :
    (∀ (k : Nat) (d' : VarData), (x.withMode g d m).data[k]? = some d' → ∃ e : VarData, x.data[k]? = some e ∧ d'.deleted = e.deleted ∧
      d'.unit = e.unit ∧ (d'.isolated = true → e.isolated = true)) ∧
    (∀ (k : Nat) (e : VarData), x.data[k]? = some e → ∃ d' : VarData, (x.withMode g d m).data[k]? = some d' ∧ d'.deleted = e.deleted ∧
      d'.unit = e.unit) := by
  constructor
  · intro k d' h1
    unfold Vars.withMode at h1
    simp only at h1
    rw [set_get hd] at h1
    by_cases hk : k = g
    · rw [if_pos hk] at h1
      obtain rfl := Option.some.inj h1
      exact ⟨d, by rw [hk]; exact hd, rfl, rfl, id⟩
    · rw [if_neg hk] at h1; exact ⟨d', h1, rfl, rfl, id⟩
  · intro k e h1
    unfold Vars.withMode
    simp only
    rw [set_get hd]
    by_cases hk : k = g
    · rw [if_pos hk]
      subst hk
      rw [hd] at h1
      obtain rfl := Option.some.inj h1
      exact ⟨_, rfl, rfl, rfl⟩
    · rw [if_neg hk]; exact ⟨e, h1, rfl, rfl⟩

/-- Changing between `sample` and `witness`. -/
theorem Inv.reMode {a : Abs} {s : St α} (h : Inv a ids s) {g : Nat} {d : VarData} (hd : s.vars.data[g]? = some d)
    (h1 : d.mode ≠ .hide) {m : Mode} (hm : m ≠ .hide) (L : List ProofStep) :
    Inv a ids { s with
      vars := s.vars.withMode g d m
      log := L } := by
  obtain ⟨k1, k2⟩ := Vars.withMode_data (m := m) hd
  have hget : ∀ k, (s.vars.withMode g d m).data[k]? = if k = g then some { d with mode := m } else s.vars.data[k]? := by
    intro k; exact set_get hd k
  refine h.rename (b := a) (x := s.vars.withMode g d m) ?_ rfl k1 k2 ?_ ?_ rfl rfl h.n.name h.n.len rfl h.n.sz.set L
  · refine ⟨h.b.v.us, h.b.v.gs, h.b.v.ulen, h.b.v.slen, ?_, ?_, ?_, h.b.v.ufree, h.b.v.sfree, ?_⟩
    · intro u k hu
      obtain ⟨e, q1, q2, q3⟩ := h.b.v.ulive u k hu
      by_cases hk : k = g
      · subst hk
        rw [hd] at q1; obtain rfl := Option.some.inj q1
        exact ⟨{ d with mode := m }, by rw [hget, if_pos rfl], q2, hm⟩
      · exact ⟨e, by rw [hget, if_neg hk]; exact q1, q2, q3⟩
    · intro v k hk
      obtain ⟨e, q1, q2⟩ := h.b.v.slive v k hk
      obtain ⟨d', q3, q4, _⟩ := k2 k e q1
      exact ⟨d', q3, by rw [q4]; exact q2⟩
    · intro k e q1 q2 q3
      rw [hget] at q1
      by_cases hk : k = g
      · subst hk
        rw [if_pos rfl] at q1
        obtain rfl := Option.some.inj q1
        exact h.b.v.hid _ d hd q2 h1
      · rw [if_neg hk] at q1; exact h.b.v.hid k e q1 q2 q3
    · intro k hk
      obtain ⟨e, q1, q2⟩ := h.b.v.gfree k hk
      obtain ⟨d', q3, q4, _⟩ := k2 k e q1
      exact ⟨d', q3, by rw [q4]; exact q2⟩
  · intro k e q1 q2
    rw [hget] at q1
    by_cases hk : k = g
    · rw [if_pos hk] at q1
      obtain rfl := Option.some.inj q1
      exact absurd q2 hm
    · rw [if_neg hk] at q1; exact h.b.hidA k e q1 q2
  · intro l hl
    obtain ⟨k, e, q1, q2, q3, q4⟩ := h.asm l hl
    by_cases hk : k = g
    · subst hk
      rw [hd] at q2; obtain rfl := Option.some.inj q2
      exact ⟨k, { d with mode := m }, q1, by rw [hget, if_pos rfl], q3, hm⟩
    · exact ⟨k, e, q1, by rw [hget, if_neg hk]; exact q2, q3, q4⟩

/-- The variables after hiding one of them. -/
def Vars.hide (x : Vars) (g u : Nat) (d : VarData) : Vars :=
  { x with
    data := x.data.set g { d with mode := .hide }
    ufg := x.ufg.remove g
    gfu := x.gfu.remove u
    userFree := x.userFree ++ [u] }

theorem VInv.hide {x : Vars} (h : VInv x) {g u : Nat} {d : VarData} (hd : x.data[g]? = some d)
    (hu : x.gfu.map u = some g) : VInv (x.hide g u d) := by
  have hget : ∀ k, (x.hide g u d).data[k]? = if k = g then some { d with mode := .hide } else x.data[k]? :=
    fun k => set_get hd k
  obtain ⟨k1, k2⟩ := Vars.withMode_data (m := .hide) hd
  have hgu : x.ufg.map g = some u := (h.us u g).1 hu
  refine ⟨?_, h.gs, ?_, h.slen, ?_, ?_, ?_, ?_, h.sfree, ?_⟩
  · intro v k
    show (x.gfu.remove u).map v = some k ↔ (x.ufg.remove g).map k = some v
    rw [VarMap.remove_eq, VarMap.remove_eq, h.us]
    constructor
    · rintro ⟨q1, q2⟩
      refine ⟨?_, q2⟩
      rintro rfl; rw [hgu] at q2; exact q1 (Option.some.inj q2).symm
    · rintro ⟨q1, q2⟩
      refine ⟨?_, q2⟩
      rintro rfl
      rw [← h.us, hu] at q2; exact q1 (Option.some.inj q2).symm
  · intro v k hk
    have := VarMap.remove_eq.1 hk
    exact h.ulen v k this.2
  · intro v k hk
    obtain ⟨q1, q2⟩ := VarMap.remove_eq.1 hk
    have hkg : k ≠ g := by
      rintro rfl
      rw [h.us, hgu] at q2
      exact q1 (Option.some.inj q2).symm
    obtain ⟨e, q3, q4⟩ := h.ulive v k q2
    exact ⟨e, by rw [hget, if_neg hkg]; exact q3, q4⟩
  · intro v k hk
    obtain ⟨e, q1, q2⟩ := h.slive v k hk
    obtain ⟨d', q3, q4, _⟩ := k2 k e q1
    exact ⟨d', q3, by rw [q4]; exact q2⟩
  · intro k e q1 q2 q3
    rw [hget] at q1
    by_cases hk : k = g
    · rw [if_pos hk] at q1
      obtain rfl := Option.some.inj q1
      exact absurd rfl q3
    · rw [if_neg hk] at q1
      obtain ⟨v, hv⟩ := Option.isSome_iff_exists.1 (h.hid k e q1 q2 q3)
      show ((x.ufg.remove g).map k).isSome = true
      rw [VarMap.remove_eq.2 ⟨hk, hv⟩]; rfl
  · intro v
    show v ∈ x.userFree ++ [u] ↔ v < x.gfu.len ∧ (x.gfu.remove u).map v = none
    rw [List.mem_append, List.mem_singleton, h.ufree]
    show _ ↔ v < x.gfu.len ∧ put x.gfu.map u none v = none
    by_cases hv : v = u
    · subst hv
      rw [put_same]
      simp [h.ulen v g hu]
    · rw [put_ne _ _ hv]; simp [hv]
  · intro k hk
    obtain ⟨e, q1, q2⟩ := h.gfree k hk
    obtain ⟨d', q3, q4, _⟩ := k2 k e q1
    exact ⟨d', q3, by rw [q4]; exact q2⟩

/-- Hiding a variable that is not assumed. -/
theorem Inv.hide {a : Abs} {s : St α} (h : Inv a ids s) {g u : Nat} {d : VarData} (hd : s.vars.data[g]? = some d)
    (hu : s.vars.gfu.map u = some g) (has : d.assumed = false) (L : List ProofStep) :
    Inv { a with name := fun v => if v = u then none else a.name v } ids { s with
      vars := s.vars.hide g u d
      log := L } := by
  have hget : ∀ k, (s.vars.hide g u d).data[k]? = if k = g then some { d with mode := .hide } else s.vars.data[k]? :=
    fun k => set_get hd k
  obtain ⟨k1, k2⟩ := Vars.withMode_data (m := .hide) hd
  refine h.rename (b := { a with name := fun v => if v = u then none else a.name v }) (h.b.v.hide hd hu) rfl k1 k2 ?_ ?_ rfl rfl ?_ h.n.len rfl h.n.sz.set L
  · intro k e q1 q2
    rw [hget] at q1
    by_cases hk : k = g
    · rw [if_pos hk] at q1
      obtain rfl := Option.some.inj q1
      exact has
    · rw [if_neg hk] at q1; exact h.b.hidA k e q1 q2
  · intro l hl
    obtain ⟨k, e, q1, q2, q3, q4⟩ := h.asm l hl
    have hk : k ≠ g := by
      rintro rfl
      rw [hd] at q2; obtain rfl := Option.some.inj q2
      rw [has] at q3; cases q3
    exact ⟨k, e, q1, by rw [hget, if_neg hk]; exact q2, q3, q4⟩
  · intro v
    show (if v = u then none else a.name v) = (put s.vars.gfu.map u none v).map ids
    by_cases hv : v = u
    · rw [hv, put_same, if_pos rfl]; rfl
    · rw [put_ne _ _ hv, if_neg hv]; exact h.n.name v

/-- `set_sampling_mode` for a variable with a user name. -/
theorem Inv.setMode {e : Env α} {a : Abs} {s : St α} (h : Inv a ids s) {g u : Nat} (hu : s.vars.gfu.map u = some g)
    (has : ∀ d, s.vars.data[g]? = some d → d.assumed = false) (m : Mode) :
    ∃ s', s.setMode e g m = .ok (s', none) ∧
      Inv (if m = .hide then { a with name := fun v => if v = u then none else a.name v } else a) ids s' ∧
      s'.vars.gfs = s.vars.gfs := by
  obtain ⟨d, hd, hdel, hmode⟩ := h.b.v.ulive u g hu
  unfold St.setMode St.data?
  rw [hd]
  simp only
  rw [if_neg (by rw [hdel]; simp), if_neg (by rw [has d hd]; simp)]
  by_cases hm : d.mode = m
  · rw [if_pos hm]
    have : m ≠ .hide := by rw [← hm]; exact hmode
    exact ⟨s, rfl, by rw [if_neg this]; exact h, rfl⟩
  rw [if_neg hm, if_neg hmode]
  by_cases hh : m = .hide
  · subst hh
    simp only [ne_eq, not_true_eq_false, if_false, if_true]
    rw [(h.b.v.us u g).1 hu]
    simp only
    obtain ⟨x, L, e1, e2⟩ := St.deleteGlobal_ok (s := (St.emitG { s with vars := s.vars.hide g u d } (.userVarName g none)))
      (h.b.v.hide hd hu) (g := g) (d := { d with mode := .hide }) (set_get hd g |>.trans (if_pos rfl)) hdel
    have hi : Inv { a with name := fun v => if v = u then none else a.name v } ids
        (St.emitG { s with vars := s.vars.hide g u d } (.userVarName g none)) := h.hide hd hu (has d hd) _
    refine ⟨{ (St.emitG { s with vars := s.vars.hide g u d } (.userVarName g none)) with vars := x, log := L }, ?_, ?_, ?_⟩
    · show (St.deleteGlobal (St.emitG { s with vars := s.vars.hide g u d } (.userVarName g none)) g >>= fun s => pure (s, none)) = _
      rw [e1]; rfl
    · rcases e2 with rfl | ⟨q1, q2, rfl⟩
      · exact ⟨⟨hi.b.v, hi.b.q, hi.b.fl, hi.b.l0, hi.b.inj, hi.b.hidA, hi.b.run, hi.b.sat⟩, hi.n, hi.asm, hi.as, hi.unsat, hi.under⟩
      · exact hi.drop (set_get hd g |>.trans (if_pos rfl)) q1 q2 L
    · rcases e2 with rfl | ⟨q1, q2, rfl⟩ <;> rfl
  · rw [if_pos hh, if_neg hh, if_neg hh]
    exact ⟨_, rfl, h.reMode hd hmode hh _, rfl⟩

/-- `witness_var`, `sample_var`, `hide_var`. -/
theorem Inv.setUserMode {e : Env α} (he : e.Ok) {a : Abs} {s : St α} (h : Inv a ids s) (u : Nat)
    (has : ∀ g d, s.vars.gfu.map u = some g → s.vars.data[g]? = some d → d.assumed = false) (m : Mode) :
    ∃ s' ids', s.setUserMode e u m = .ok s' ∧
      Inv (if m = .hide then { a.ensure u with name := fun v => if v = u then none else (a.ensure u).name v } else a.ensure u) ids' s' := by
  obtain ⟨t, g, ids', e1, e2, e3, e4, e5, e6⟩ := St.globalFromUser_ok he h.b h.n u false (by simp)
  unfold St.setUserMode
  rw [e1, ok_bind]
  simp only
  obtain ⟨s', f1, f2, _⟩ := (h.grown e2).setMode (e := e) e3 (by
    intro d hd
    cases hu : s.vars.gfu.map u with
    | none => rw [e6 d hd hu]; rfl
    | some g' =>
      have := e2.more.gfu _ _ hu
      rw [e3] at this
      obtain rfl := Option.some.inj this
      obtain ⟨d0, q1, q2, _⟩ := h.b.v.ulive _ _ hu
      have := e2.more.data _ _ q1 q2
      rw [hd] at this
      obtain rfl := Option.some.inj this
      exact has g d hu q1) m
  rw [f1, ok_bind]
  exact ⟨s', ids', rfl, f2⟩

/-! ### Observing hidden variables -/

/-- The variables after giving a hidden one a user name. -/
def Vars.show_ (x : Vars) (g u : Nat) (d : VarData) : Vars :=
  { x with
    data := x.data.set g { d with mode := .witness }
    ufg := x.ufg.insert u g
    gfu := x.gfu.insert g u
    userFree := x.userFree.filter (· ≠ u) }

theorem VarMap.insert_iff {m : VarMap} {a b k y : Nat} : (m.insert b a).map k = some y ↔ (k = a ∧ b = y) ∨ (k ≠ a ∧ m.map k = some y) := by
  show put m.map a (some b) k = some y ↔ _
  by_cases h : k = a
  · subst h; rw [put_same]; simp
  · rw [put_ne _ _ h]; simp [h]

theorem VInv.show_ {x : Vars} (h : VInv x) {g u : Nat} {d : VarData} (hd : x.data[g]? = some d) (hdel : d.deleted = false)
    (hg : x.ufg.map g = none) (hu : x.gfu.map u = none) (hul : u ≤ x.gfu.len) : VInv (x.show_ g u d) := by
  have hget : ∀ k, (x.show_ g u d).data[k]? = if k = g then some { d with mode := .witness } else x.data[k]? :=
    fun k => set_get hd k
  obtain ⟨k1, k2⟩ := Vars.withMode_data (m := .witness) hd
  refine ⟨?_, h.gs, ?_, h.slen, ?_, ?_, ?_, ?_, h.sfree, ?_⟩
  · intro v k
    show (x.gfu.insert g u).map v = some k ↔ (x.ufg.insert u g).map k = some v
    rw [VarMap.insert_iff, VarMap.insert_iff, h.us]
    constructor
    · rintro (⟨q1, q2⟩ | ⟨q1, q2⟩)
      · exact .inl ⟨q2.symm, q1.symm⟩
      · refine .inr ⟨?_, q2⟩
        rintro rfl; rw [hg] at q2; cases q2
    · rintro (⟨q1, q2⟩ | ⟨q1, q2⟩)
      · exact .inl ⟨q2.symm, q1.symm⟩
      · refine .inr ⟨?_, q2⟩
        rintro rfl; rw [← h.us, hu] at q2; cases q2
  · intro v k hk
    show v < max x.gfu.len (u + 1)
    rcases VarMap.insert_iff.1 hk with ⟨rfl, _⟩ | ⟨_, q⟩
    · omega
    · have := h.ulen v k q; omega
  · intro v k hk
    rcases VarMap.insert_iff.1 hk with ⟨rfl, rfl⟩ | ⟨q0, q⟩
    · exact ⟨{ d with mode := .witness }, by rw [hget, if_pos rfl], hdel, by simp⟩
    · obtain ⟨e, q3, q4⟩ := h.ulive v k q
      have hkg : k ≠ g := by
        rintro rfl; rw [h.us, hg] at q; cases q
      exact ⟨e, by rw [hget, if_neg hkg]; exact q3, q4⟩
  · intro v k hk
    obtain ⟨e, q1, q2⟩ := h.slive v k hk
    obtain ⟨d', q3, q4, _⟩ := k2 k e q1
    exact ⟨d', q3, by rw [q4]; exact q2⟩
  · intro k e q1 q2 q3
    rw [hget] at q1
    show ((x.ufg.insert u g).map k).isSome = true
    by_cases hk : k = g
    · rw [VarMap.insert_iff.2 (.inl ⟨hk, rfl⟩)]; rfl
    · rw [if_neg hk] at q1
      obtain ⟨v, hv⟩ := Option.isSome_iff_exists.1 (h.hid k e q1 q2 q3)
      rw [VarMap.insert_iff.2 (.inr ⟨hk, hv⟩)]; rfl
  · intro v
    show v ∈ x.userFree.filter (· ≠ u) ↔ v < max x.gfu.len (u + 1) ∧ put x.gfu.map u (some g) v = none
    rw [List.mem_filter, h.ufree]
    by_cases hv : v = u
    · subst hv; rw [put_same]; simp
    · rw [put_ne _ _ hv]
      simp only [decide_eq_true_eq, ne_eq, hv, not_false_eq_true, and_true]
      constructor
      · rintro ⟨q1, q2⟩; exact ⟨by omega, q2⟩
      · rintro ⟨q1, q2⟩; exact ⟨by omega, q2⟩
  · intro k hk
    obtain ⟨e, q1, q2⟩ := h.gfree k hk
    obtain ⟨d', q3, q4, _⟩ := k2 k e q1
    exact ⟨d', q3, by rw [q4]; exact q2⟩

/-- The state seen after a hidden variable got a user name. -/
def namedAbs (a : Abs) (u i : Nat) : Abs :=
  { a with
    name := fun v => if v = u then some i else a.name v
    len := max a.len (u + 1) }

/-- `set_sampling_mode` for a hidden variable. -/
theorem Inv.unhide {e : Env α} (he : e.Ok) {a : Abs} {s : St α} (h : Inv a ids s) {g : Nat} {d : VarData}
    (hd : s.vars.data[g]? = some d) (hdel : d.deleted = false) (hm : d.mode = .hide) :
    ∃ s' u, s.setMode e g .witness = .ok (s', some u) ∧ Inv (namedAbs a u (ids g)) ids s' ∧ a.name u = none ∧
      s'.vars.gfu.map u = some g ∧ s'.vars.data.length = s.vars.data.length := by
  unfold St.setMode St.data?
  rw [hd]
  simp only
  rw [if_neg (by rw [hdel]; simp), if_neg (by rw [h.b.hidA g d hd hm]; simp), if_neg (by rw [hm]; simp), if_pos hm]
  have hug : s.vars.ufg.map g = none := by
    cases hu : s.vars.ufg.map g with
    | none => rfl
    | some u =>
      obtain ⟨e, q1, _, q2⟩ := h.b.v.ulive u g ((h.b.v.us u g).2 hu)
      rw [hd] at q1; obtain rfl := Option.some.inj q1
      exact absurd hm q2
  simp only [ne_eq, reduceCtorEq, not_false_eq_true, if_true]
  obtain ⟨t, ht⟩ : ∃ t : St α, t = St.emitG { s with vars := s.vars.withMode g d .witness } (.changeSamplingMode g (Mode.witness == .sample)) := ⟨_, rfl⟩
  have hnu : ∃ u, u = t.nextUser e := ⟨_, rfl⟩
  obtain ⟨u, hu⟩ := hnu
  have hfree : s.vars.gfu.map u = none ∧ u ≤ s.vars.gfu.len := by
    rw [hu, ht]
    unfold St.nextUser
    show s.vars.gfu.map ((e.pick 2 _ s.vars.userFree).getD s.vars.gfu.len) = none ∧
      (e.pick 2 _ s.vars.userFree).getD s.vars.gfu.len ≤ s.vars.gfu.len
    cases hp : e.pick 2 (s.log ++ [ProofStep.changeSamplingMode g (Mode.witness == Mode.sample)]).length s.vars.userFree with
    | none =>
      simp only [St.emitG, hp, Option.getD_none, Nat.le_refl, and_true]
      cases hc : s.vars.gfu.map s.vars.gfu.len with
      | none => rfl
      | some g => exact absurd (h.b.v.ulen _ g hc) (by omega)
    | some u =>
      obtain ⟨h1, h2⟩ := (h.b.v.ufree u).1 (he.pick_mem hp)
      simp only [St.emitG, hp, Option.getD_some]
      exact ⟨h2, Nat.le_of_lt h1⟩
  have hget : ∀ k, (s.vars.show_ g u d).data[k]? = if k = g then some { d with mode := .witness } else s.vars.data[k]? :=
    fun k => set_get hd k
  obtain ⟨k1, k2⟩ := Vars.withMode_data (m := .witness) hd
  refine ⟨{ s with vars := s.vars.show_ g u d, log := (t.log ++ [.userVarName g (some u)]) }, u, ?_, ?_, ?_, ?_, ?_⟩
  · rw [hu, ht]; rfl
  · refine h.rename (b := namedAbs a u (ids g)) (h.b.v.show_ hd hdel hug hfree.1 hfree.2) rfl k1 k2 ?_ ?_ rfl rfl ?_ ?_ rfl ?_ _
    · intro k e q1 q2
      rw [hget] at q1
      by_cases hk : k = g
      · rw [if_pos hk] at q1
        obtain rfl := Option.some.inj q1
        cases q2
      · rw [if_neg hk] at q1; exact h.b.hidA k e q1 q2
    · intro l hl
      obtain ⟨k, e, q1, q2, q3, q4⟩ := h.asm l hl
      have hk : k ≠ g := by
        rintro rfl
        rw [hd] at q2; obtain rfl := Option.some.inj q2
        exact q4 hm
      exact ⟨k, e, q1, by rw [hget, if_neg hk]; exact q2, q3, q4⟩
    · intro v
      show (if v = u then some (ids g) else a.name v) = (put s.vars.gfu.map u (some g) v).map ids
      by_cases hv : v = u
      · rw [hv, put_same, if_pos rfl]; rfl
      · rw [put_ne _ _ hv, if_neg hv]; exact h.n.name v
    · show max a.len (u + 1) = max s.vars.gfu.len (u + 1)
      rw [h.n.len]
    · obtain ⟨z1, z2, z3⟩ := h.n.sz
      have hgl := (List.getElem?_eq_some_iff.1 hd).1
      have hnx : t.nextUser e = (({ s with log := s.log ++ [.changeSamplingMode g (Mode.witness == Mode.sample)] } : St α)).nextUser e := by
        rw [ht]; rfl
      obtain ⟨-, -, q⟩ := St.nextUser_lt (s := ({ s with log := s.log ++ [.changeSamplingMode g (Mode.witness == Mode.sample)] } : St α))
        he h.b.v rfl z1 hug hgl
      rw [← hnx, ← hu] at q
      have hl2 : (s.vars.show_ g u d).data.length = s.vars.data.length := List.length_set ..
      refine ⟨?_, ?_, ?_⟩
      · rw [hl2]; exact Nat.max_le.2 ⟨z1, q⟩
      · rw [hl2]; exact z2
      · rw [hl2]; exact z3
  · rw [h.n.name, hfree.1]; rfl
  · exact put_same _ _ _
  · exact List.length_set ..

theorem Names.inj {a : Abs} {s : St α} (h : Inv a ids s) {u v i : Nat} (h1 : a.name u = some i) (h2 : a.name v = some i) : u = v := by
  rw [h.n.name] at h1 h2
  obtain ⟨g, g1, g2⟩ := Option.map_eq_some_iff.1 h1
  obtain ⟨k, k1, k2⟩ := Option.map_eq_some_iff.1 h2
  obtain ⟨d, q1, q2, _⟩ := h.b.v.ulive _ _ g1
  obtain ⟨e, r1, r2, _⟩ := h.b.v.ulive _ _ k1
  have := h.b.inj g k ⟨d, q1, q2⟩ ⟨e, r1, r2⟩ (g2.trans k2.symm)
  subst this
  rw [h.b.v.us] at g1 k1
  rw [g1] at k1; exact Option.some.inj k1

/-- The result of observing hidden variables. -/
structure Obs (a b : Abs) (us : List Nat) : Prop where
  nodup : us.Nodup
  new : ∀ u ∈ us, a.name u = none
  some_ : ∀ u ∈ us, ∃ i, b.name u = some i ∧ i < a.next
  other : ∀ u, u ∉ us → b.name u = a.name u
  clauses : b.clauses = a.clauses
  assumptions : b.assumptions = a.assumptions
  next : b.next = a.next
  len : a.len ≤ b.len

theorem Inv.observeLoop {e : Env α} (he : e.Ok) : ∀ (gs : List Nat) {a : Abs} {s : St α}, Inv a ids s →
    (∀ g ∈ gs, g < s.vars.data.length) →
    ∃ s' us b, St.observeLoop e gs s = .ok (s', us) ∧ Inv b ids s' ∧ Obs a b us
  | [], a, s, h, _ => ⟨s, [], a, rfl, h, ⟨.nil, by simp, by simp, fun _ _ => rfl, rfl, rfl, rfl, Nat.le_refl _⟩⟩
  | g :: gs, a, s, h, hl => by
    obtain ⟨d, hd⟩ : ∃ d, s.vars.data[g]? = some d := ⟨_, List.getElem?_eq_getElem (hl g (by simp))⟩
    rw [St.observeLoop]
    unfold St.data?
    rw [hd]
    simp only
    by_cases hc : (!d.deleted && d.mode == .hide) = true
    · rw [if_pos hc]
      simp only [Bool.and_eq_true, Bool.not_eq_true', beq_iff_eq] at hc
      obtain ⟨t, u, e1, e2, e3, e4, e5⟩ := h.unhide he hd hc.1 hc.2
      obtain ⟨s', us, b, f1, f2, f3⟩ := Inv.observeLoop he gs e2 (fun k hk => by rw [e5]; exact hl k (by simp [hk]))
      rw [e1, ok_bind]
      simp only
      rw [f1, ok_bind]
      have hnu : u ∉ us := by
        intro hu
        have := f3.new u hu
        simp [namedAbs] at this
      refine ⟨s', u :: us, b, rfl, f2, ⟨List.nodup_cons.2 ⟨hnu, f3.nodup⟩, ?_, ?_, ?_, f3.clauses, f3.assumptions, f3.next, ?_⟩⟩
      · intro v hv
        rcases List.mem_cons.1 hv with rfl | hv
        · exact e3
        · have hvu : v ≠ u := fun hx => hnu (hx ▸ hv)
          have := f3.new v hv
          simpa [namedAbs, hvu] using this
      · intro v hv
        rcases List.mem_cons.1 hv with rfl | hv
        · refine ⟨ids g, ?_, h.n.lt g ⟨d, hd, hc.1⟩⟩
          rw [f3.other v hnu]
          simp [namedAbs]
        · exact f3.some_ v hv
      · intro v hv
        rw [List.mem_cons, not_or] at hv
        rw [f3.other v hv.2]
        simp [namedAbs, hv.1]
      · refine Nat.le_trans ?_ f3.len
        exact Nat.le_max_left _ _
    · rw [if_neg hc]
      exact Inv.observeLoop he gs h (fun k hk => hl k (by simp [hk]))

/-- `observe_internal_vars`. -/
theorem Inv.observe {e : Env α} (he : e.Ok) {a : Abs} {s : St α} (h : Inv a ids s) :
    ∃ s' us b, s.observeInternal e = .ok (s', us) ∧ Inv b ids s' ∧ Obs a b us :=
  h.observeLoop he _ (fun g hg => List.mem_range.1 hg)

end Varisat.Solver
