import Verif.Proof.Solver.JointRun
/-!
# The clauses in the proof before the first `solve`

As long as no variable was hidden or observed, every variable has the same index in the proof as for the
user, and the clauses in the proof are those of the user.
-/
namespace Varisat.Solver
open Checker (addsOf restOf View Shown)
open Out (addsOf_append)
open Api (Hist Abs added Plain)

variable {α : Type} [LinearOrder α]

/-- Variables have the same index in the proof as for the user, and none is hidden. -/
structure Ident (x : Vars) : Prop where
  same : ∀ u g : Nat, x.gfu.map u = some g → g = u
  live : ∀ (g : Nat) (d : VarData), x.data[g]? = some d → d.deleted = false → x.gfu.map g = some g ∧ d.mode ≠ .hide

/-- Indices stay the same and the clauses `C` are added to the proof. -/
structure Tells (C : List (List Lit)) (s s' : St α) : Prop where
  id : Ident s.vars → Ident s'.vars
  adds : addsOf s'.log = addsOf s.log ++ C

theorem Tells.same {s s' : St α} (h : s'.log = s.log) (hv : s'.vars = s.vars) : Tells [] s s' :=
  ⟨by rw [hv]; exact _root_.id, by rw [h]; simp⟩
theorem Tells.refl (s : St α) : Tells [] s s := .same rfl rfl
theorem Tells.trans {a b c : St α} {C D : List (List Lit)} (h : Tells C a b) (k : Tells D b c) : Tells (C ++ D) a c :=
  ⟨fun x => k.id (h.id x), by rw [k.adds, h.adds, List.append_assoc]⟩
theorem Tells.then {a b c : St α} {C : List (List Lit)} (h : Tells [] a b) (k : Tells C b c) : Tells C a c := h.trans k
theorem Tells.after {a b c : St α} {C : List (List Lit)} (h : Tells C a b) (k : Tells [] b c) : Tells C a c := by
  have := h.trans k; rwa [List.append_nil] at this

theorem Tells.from {s t s' : St α} {C : List (List Lit)} (k : Tells C t s') (h : t.log = s.log) (hv : t.vars = s.vars) : Tells C s s' :=
  ⟨by rw [← hv]; exact k.id, by rw [← h]; exact k.adds⟩

theorem addsOf_one {st : ProofStep} (h : ∀ c, st ≠ .addClause c) : addsOf [st] = [] := by
  cases st <;> first | rfl | exact absurd rfl (h _)

theorem Tells.one {s s' : St α} {st : ProofStep} (h : s'.log = s.log ++ [st]) (hs : ∀ c, st ≠ .addClause c)
    (hv : Ident s.vars → Ident s'.vars) : Tells [] s s' :=
  ⟨hv, by rw [h, addsOf_append, addsOf_one hs]⟩

theorem Ident.new (e : Env α) : Ident (St.new e).vars :=
  ⟨fun _ _ h => (by cases h), fun g d h => (by simp [St.new] at h)⟩

/-- Changing flags of a variable. -/
theorem Ident.set {x : Vars} (h : Ident x) {g : Nat} {d d' : VarData} (hd : x.data[g]? = some d) (h1 : d'.deleted = d.deleted)
    (h2 : d.mode ≠ .hide → d'.mode ≠ .hide) : Ident { x with data := x.data.set g d' } := by
  refine ⟨h.same, fun k dk hk hdel => ?_⟩
  have hk : (x.data.set g d')[k]? = some dk := hk
  by_cases hgk : g = k
  · subst hgk
    rw [List.getElem?_set_self (List.getElem?_eq_some_iff.1 hd).1] at hk
    cases hk
    obtain ⟨k1, k2⟩ := h.live g d hd (by rw [← h1]; exact hdel)
    exact ⟨k1, h2 k2⟩
  · rw [List.getElem?_set_ne hgk] at hk
    exact h.live k dk hk hdel

namespace St

theorem Ident.choose {e : Env α} {s : St α} (h : Ident s.vars) {u : Nat} (hu : s.vars.gfu.map u = none) : s.chooseGlobal e u = u := by
  unfold chooseGlobal data?
  cases hd : s.vars.data[u]? with
  | none => rfl
  | some d =>
    simp only
    split
    · rfl
    · rename_i hdel
      have := (h.live u d hd (by simpa using hdel)).1
      rw [hu] at this; cases this

theorem globalFromUser1_tells {e : Env α} {s s' : St α} {u g : Nat} {b : Bool} (h : s.globalFromUser1 e u b = .ok (s', g)) :
    Tells [] s s' := by
  unfold globalFromUser1 at h
  split at h
  · split at h
    · cases h
    · cases h; exact Tells.refl _
  · rename_i hu
    cases h
    refine Tells.one rfl (fun c h => by cases h) fun hi => ?_
    have hc := Ident.choose (e := e) hi hu
    refine ⟨fun v g hv => ?_, fun k dk hk hdel => ?_⟩
    · have hv : put s.vars.gfu.map u (some (s.chooseGlobal e u)) v = some g := hv
      rw [hc] at hv
      unfold put at hv
      split at hv
      · rename_i h; cases hv; exact h.symm
      · exact hi.same v g hv
    · have hk : (setUserDefault s.vars.data (s.chooseGlobal e u))[k]? = some dk := hk
      show put s.vars.gfu.map u (some (s.chooseGlobal e u)) k = some k ∧ _
      rw [hc] at hk ⊢
      unfold put
      by_cases hku : k = u
      · subst hku
        rw [if_pos rfl]
        refine ⟨rfl, ?_⟩
        unfold setUserDefault at hk
        rw [List.getElem?_set_self (by simp; omega)] at hk
        cases hk
        decide
      · rw [if_neg hku]
        unfold setUserDefault at hk
        rw [List.getElem?_set_ne (Ne.symm hku)] at hk
        by_cases hkl : k < s.vars.data.length
        · rw [List.getElem?_append_left hkl] at hk
          exact hi.live k dk hk hdel
        · rw [List.getElem?_append_right (by omega)] at hk
          obtain ⟨_, rfl⟩ := List.getElem?_eq_some_iff.1 hk
          rw [List.getElem_replicate] at hdel
          cases hdel

theorem fillUsers_tells {e : Env α} : ∀ {n i : Nat} {s s' : St α}, fillUsers e n i s = .ok s' → Tells [] s s'
  | 0, _, _, _, h => by cases h; exact Tells.refl _
  | n + 1, i, s, s', h => by
    rw [fillUsers] at h
    obtain ⟨⟨t, g⟩, h1, h⟩ := bind_inv h
    exact (globalFromUser1_tells h1).trans (fillUsers_tells h)

theorem globalFromUser_tells {e : Env α} {s s' : St α} {u g : Nat} {b : Bool} (h : s.globalFromUser e u b = .ok (s', g)) :
    Tells [] s s' := by
  unfold globalFromUser at h
  obtain ⟨t, h1, h⟩ := bind_inv h
  exact (fillUsers_tells h1).trans (globalFromUser1_tells h)

theorem updSolverData_tells {s s' : St α} {v : Nat} {f : VarData → VarData} (h : s.updSolverData v f = .ok s')
    (hf : ∀ d, (f d).deleted = d.deleted ∧ (f d).mode = d.mode) : Tells [] s s' := by
  unfold updSolverData at h
  split at h
  · cases h
  · split at h
    · rename_i hd
      cases h
      refine ⟨fun hi => ⟨hi.same, fun k dk hk hdel => ?_⟩, (List.append_nil _).symm⟩
      have hk : (s.vars.data.modify _ f)[k]? = some dk := hk
      rw [List.getElem?_modify] at hk
      split at hk
      · simp only [Option.map_eq_map, Option.map_eq_some_iff] at hk
        obtain ⟨d, hd, rfl⟩ := hk
        rw [(hf d).1] at hdel
        rw [(hf d).2]
        exact hi.live k d hd hdel
      · simp only [Option.map_eq_map, Option.map_id'] at hk
        exact hi.live k dk hk hdel
    · cases h

theorem initSolverVar_tells {e : Env α} {s s' : St α} {v g : Nat} (h : s.initSolverVar e v g = .ok s') : Tells [] s s' := by
  unfold initSolverVar at h
  split at h
  · cases h
  · simp only at h
    split at h
    · cases h
    · cases h; exact Tells.same rfl rfl

theorem solverFromGlobal_tells {e : Env α} {s s' : St α} {g v : Nat} (h : s.solverFromGlobal e g = .ok (s', v)) : Tells [] s s' := by
  unfold solverFromGlobal at h
  split at h
  · cases h; exact Tells.refl _
  · obtain ⟨t, h1, h⟩ := bind_inv h
    cases h
    have k := initSolverVar_tells h1
    have k2 : Tells [] t (t.emitG (.solverVarName g (some (s.nextSolver e)))) := Tells.one rfl (fun c h => by cases h) (fun h => h)
    have k3 := k.trans k2
    exact ⟨fun hi => k3.id ⟨hi.same, hi.live⟩, k3.adds⟩

theorem solverFromUser_tells {e : Env α} {s s' : St α} {u v : Nat} {b : Bool} (h : s.solverFromUser e u b = .ok (s', v)) :
    Tells [] s s' := by
  unfold solverFromUser at h
  obtain ⟨t, h1, h⟩ := bind_inv h
  exact (globalFromUser_tells (s' := t.1) (g := t.2) h1).trans (solverFromGlobal_tells h)

theorem solverFromUserLits_tells {e : Env α} {b : Bool} : ∀ {ls : List Lit} {s s' : St α} {r : List Lit},
    solverFromUserLits e b ls s = .ok (s', r) → Tells [] s s'
  | [], _, _, _, h => by cases h; exact Tells.refl _
  | l :: ls, s, s', r, h => by
    rw [solverFromUserLits] at h
    obtain ⟨⟨t, v⟩, h1, h⟩ := bind_inv h
    obtain ⟨⟨t2, q⟩, h2, h⟩ := bind_inv h
    cases h
    exact (solverFromUser_tells h1).trans (solverFromUserLits_tells h2)

theorem setMode_tells {e : Env α} {s s' : St α} {g : Nat} {m : Mode} {r : Option Nat} (hi : Ident s.vars) (h : s.setMode e g m = .ok (s', r))
    (hm : m ≠ .hide) : Tells [] s s' := by
  unfold setMode at h
  split at h
  · cases h
  · rename_i dt hd
    have hd : s.vars.data[g]? = some dt := hd
    split at h
    · cases h
    rename_i hdel
    split at h
    · cases h
    split at h
    · cases h; exact Tells.refl _
    simp only at h
    simp only [(hi.live g dt hd (by simpa using hdel)).2, hm, if_false, ne_eq, not_false_eq_true, if_true] at h
    cases h
    exact Tells.one rfl (fun c h => by cases h) fun hi => hi.set hd rfl fun _ => hm

theorem setUserMode_tells {e : Env α} {s s' : St α} {u : Nat} {m : Mode} (hi : Ident s.vars) (h : s.setUserMode e u m = .ok s')
    (hm : m ≠ .hide) : Tells [] s s' := by
  unfold setUserMode at h
  obtain ⟨t, h1, h⟩ := bind_inv h
  obtain ⟨t2, h2, h⟩ := bind_inv h
  cases h
  have k := globalFromUser_tells (s' := t.1) (g := t.2) h1
  exact k.trans (setMode_tells (s' := t2.1) (r := t2.2) (k.id hi) h2 hm)

theorem setAssumed_tells {b : Bool} : ∀ {ls : List Lit} {s s' : St α}, setAssumed b ls s = .ok s' → Tells [] s s'
  | [], _, _, h => by cases h; exact Tells.refl _
  | l :: ls, s, s', h => by
    rw [setAssumed] at h
    obtain ⟨t, h1, h⟩ := bind_inv h
    exact (updSolverData_tells h1 fun _ => ⟨rfl, rfl⟩).trans (setAssumed_tells h)

theorem clearIsolated_tells : ∀ {ls : List Lit} {s s' : St α}, clearIsolated ls s = .ok s' → Tells [] s s'
  | [], _, _, h => by cases h; exact Tells.refl _
  | l :: ls, s, s', h => by
    rw [clearIsolated] at h
    obtain ⟨t, h1, h⟩ := bind_inv h
    exact (updSolverData_tells h1 fun _ => ⟨rfl, rfl⟩).trans (clearIsolated_tells h)

theorem emit_tells {s s' : St α} {x : ProofStep} (h : s.emit x = .ok s')
    (hx : (∃ c, x = .deleteClause c .satisfied) ∨ ∃ c, x = .assumptions c) : Tells [] s s' := by
  unfold emit at h
  split at h
  · rename_i y hy
    cases h
    refine Tells.one rfl ?_ fun h => h
    rcases hx with ⟨c, rfl⟩ | ⟨c, rfl⟩ <;>
      (simp only [mapStep?, Option.map_eq_some_iff] at hy; obtain ⟨b, _, rfl⟩ := hy; intro c h; cases h)
  · cases h

theorem assume_tells {e : Env α} {s s' : St α} {ls : List Lit} (h : s.assume e ls = .ok s') : Tells [] s s' := by
  unfold assume at h
  obtain ⟨t1, h1, h⟩ := bind_inv h
  obtain ⟨⟨t2, r⟩, h2, h⟩ := bind_inv h
  obtain ⟨t3, h3, h⟩ := bind_inv h
  have k2 := (setAssumed_tells h3).then (emit_tells h (.inr ⟨_, rfl⟩))
  have k1 := (setAssumed_tells h1).then ((solverFromUserLits_tells h2).then (k2.from (s := t2) rfl rfl))
  exact k1.from rfl rfl

theorem storeClause_tells {e : Env α} {s s' : St α} {b : Bool} {ls : List Lit} (h : s.storeClause e b ls = .ok s') : Tells [] s s' := by
  unfold storeClause at h
  split at h
  · cases h; exact Tells.same rfl rfl
  · split at h
    · cases h; exact Tells.same rfl rfl
    · cases h; exact Tells.same rfl rfl
  · cases h; exact Tells.same rfl rfl
  · split at h
    · cases h
    · cases h; exact Tells.same rfl rfl

/-- The clause in the proof. -/
theorem loadLits_tells {e : Env α} {s s' : St α} {ls : List Lit} (hp : ∀ l ∈ ls, s.vars.pres l.var) (h : s.loadLits e ls = .ok s') :
    Tells [(dedupLits (sortLits ls)).map (glit s.vars)] s s' := by
  unfold loadLits at h
  obtain ⟨t, h1, h⟩ := bind_inv h
  rw [St.emit_glit (st := .addClause _) (fun l hl => hp l (by
    have hl : l ∈ dedupLits (sortLits ls) := hl
    rw [mem_dedupLits, mem_sortLits] at hl; exact hl))] at h1
  have k1 : Tells [(dedupLits (sortLits ls)).map (glit s.vars)] s t := by
    cases h1
    refine ⟨fun h => h, ?_⟩
    rw [addsOf_append]; rfl
  split at h
  · cases h; exact k1
  have key : ∀ {u : St α}, Tells [] t u → (let r := scanLits u.p (dedupLits (sortLits ls))
      let s := { u with p := r.2.1.foldl (fun (p : Pt) (l : Lit) => p.resurrect l.neg) u.p }
      let lits := r.1 ++ r.2.1
      if r.2.2 then
        if lits.length > 1 then s.emit (.deleteClause lits .satisfied) else pure s
      else s.storeClause e r.1.isEmpty lits) = .ok s' → Tells [] t s' := by
    intro u hu h
    simp only at h
    have hg : Tells [] t ({ u with p := (scanLits u.p (dedupLits (sortLits ls))).2.1.foldl (fun (p : Pt) (l : Lit) => p.resurrect l.neg) u.p } : St α) :=
      hu.trans (Tells.same rfl rfl)
    split at h
    · split at h
      · exact hg.trans (emit_tells h (.inl ⟨_, rfl⟩))
      · cases h; exact hg
    · exact hg.trans (storeClause_tells h)
  split at h
  · obtain ⟨u, h2, h⟩ := bind_inv h
    exact k1.after (key (clearIsolated_tells h2) h)
  · exact k1.after (key (Tells.refl _) h)

end St

theorem canonical_congr {a b : List Lit} (h : ∀ l, l ∈ a ↔ l ∈ b) : copyCanonical a = copyCanonical b := by
  have h1 : (copyCanonical a).1 = (copyCanonical b).1 :=
    ssorted_ext (canonical_ssorted a) (canonical_ssorted b) fun l => by rw [mem_canonical, mem_canonical, h]
  have h2 : ∀ c : List Lit, copyCanonical c = ((copyCanonical c).1, tautScan none (copyCanonical c).1) := fun c => rfl
  rw [h2 a, h2 b, h1]

/-- The clause in the proof is that of the user. -/
theorem St.loadClause_tells {e : Env α} {s s' : St α} {c : List Lit} {b : Abs} {ids : Nat → Nat} (he : e.Ok) (hi : Inv b ids s)
    (hid : Ident s.vars) (hc : s.sat = .unsat ∨ SampleOk s.vars c) (ho : s.loadClause e c = .ok s') :
    s.sat = .unsat ∧ Tells [] s s' ∨ ∃ c', Tells [c'] s s' ∧ copyCanonical c' = copyCanonical c := by
  unfold St.loadClause at ho
  by_cases hs : s.sat = .unsat
  · rw [if_pos hs] at ho; cases ho; exact .inl ⟨hs, Tells.refl _⟩
  rw [if_neg hs] at ho
  simp only at ho
  have h1 := hi.setSat (t := if s.sat = .sat then .unknown else s.sat) (fe := false)
    (by by_cases hx : s.sat = .sat <;> simp [hx]) (by by_cases hx : s.sat = .sat <;> simp [hx])
    (by by_cases hx : s.sat = .sat <;> simp [hx])
  obtain ⟨h2, hz⟩ := h1.fullRestart
  obtain ⟨t, ht⟩ : ∃ t, t = St.fullRestart { s with sat := if s.sat = .sat then .unknown else s.sat, formulaEmpty := false } := ⟨_, rfl⟩
  have htv : t.vars = s.vars := by rw [ht]; rfl
  have htl : t.log = s.log := by rw [ht]; rfl
  rw [← ht] at h2 hz ho
  obtain ⟨u, ms, ids', e1, g, lk, so⟩ := St.solverFromUserLits_ok he c h2.b h2.n (by rw [htv]; exact hc.resolve_left hs)
  rw [e1, ok_bind] at ho
  simp only at ho
  have k1 := (St.solverFromUserLits_tells e1).from htl htv
  have hp := litOk_pres lk
  refine .inr ⟨_, k1.then (St.loadLits_tells hp ho), canonical_congr ?_⟩
  have hu := k1.id hid
  have hg : List.Forall₂ (fun l m => glit u.vars m = l) c ms := lk.imp fun l m ⟨g, q1, q2, q3⟩ => by
    have := hu.same _ _ q1
    subst this
    rw [glit_of q2, q3]
    exact Lit.mk'_var_neg l
  intro l
  simp only [List.mem_map, mem_dedupLits, mem_sortLits]
  constructor
  · rintro ⟨m, hm, rfl⟩
    have : ∀ {c ms : List Lit}, List.Forall₂ (fun l m => glit u.vars m = l) c ms → m ∈ ms → glit u.vars m ∈ c := by
      intro c ms h
      induction h with
      | nil => intro h; cases h
      | cons a _ ih =>
        intro h
        rcases List.mem_cons.1 h with rfl | h
        · rw [a]; simp
        · exact List.mem_cons_of_mem _ (ih h)
    exact this hg hm
  · have : ∀ {c ms : List Lit}, List.Forall₂ (fun l m => glit u.vars m = l) c ms → l ∈ c → ∃ m ∈ ms, glit u.vars m = l := by
      intro c ms h
      induction h with
      | nil => intro h; cases h
      | cons a _ ih =>
        intro h
        rcases List.mem_cons.1 h with rfl | h
        · exact ⟨_, by simp, a⟩
        · obtain ⟨m, q1, q2⟩ := ih h
          exact ⟨m, by simp [q1], q2⟩
    exact this hg

/-- What the checker sees after clauses of the user. -/
def viewOf (C : List (List Lit)) : View := (C.map ProofStep.addClause).foldl View.step {}

theorem viewOf_snoc (C : List (List Lit)) (c : List Lit) : viewOf (C ++ [c]) = (viewOf C).step (.addClause c) := by
  simp [viewOf]

theorem prep_unsat {V : View} {st : ProofStep} (h : Checker.Prep st) : (V.step st).unsat = V.unsat := by
  cases st with
  | userVarName g u =>
    cases u with
    | some u => rfl
    | none =>
      show (match V.user g with | some u => _ | none => V).unsat = _
      split <;> rfl
  | deleteClause c p => rfl
  | solverVarName => rfl
  | changeSamplingMode => rfl
  | assumptions => rfl
  | _ => exact absurd h id

theorem restOf_unsat : ∀ {L : List ProofStep} {V : View}, (∀ st ∈ L, Checker.Prep st ∨ ∃ c, st = .addClause c) →
    ((restOf L).foldl View.step V).unsat = V.unsat
  | [], _, _ => rfl
  | st :: L, V, h => by
    have hL : ∀ st ∈ L, Checker.Prep st ∨ ∃ c, st = .addClause c := fun x hx => h x (by simp [hx])
    rcases h st (by simp) with hp | ⟨c, rfl⟩
    · have : restOf (st :: L) = st :: restOf L := by
        cases st <;> first | rfl | exact absurd hp id
      rw [this, List.foldl_cons, restOf_unsat hL, prep_unsat hp]
    · exact restOf_unsat (L := L) hL

/-- Before the first `solve`. -/
theorem Exec.tells {s : St α} {h : Hist} (x : Exec s h) (hns : NoSolve h) (hp : Plain h) (hlen : s.vars.gfs.len < 2 ^ 32) :
    Ident s.vars ∧ (∀ st ∈ s.log, Checker.Prep st ∨ ∃ c, st = .addClause c) ∧ viewOf (addsOf s.log) = viewOf (added h) ∧
      ∀ c ∈ addsOf s.log, ∃ d ∈ added h, copyCanonical c = copyCanonical d := by
  induction x with
  | new e => exact ⟨Ident.new e, (fun st h => by cases h), rfl, (fun c h => by cases h)⟩
  | @call s s' h op r e x he hs ih =>
    obtain ⟨a, ids, hr, hi⟩ := x.inv
    obtain ⟨hl1, hl2⟩ := hi.step_grows hs
    obtain ⟨i1, i2, i3, i4⟩ := ih (fun y hy => hns y (by simp [hy])) (fun y hy => hp y (by simp [hy])) (by omega)
    have hsay := St.step_says_all (d := false) hs
      (fun n hn => hns (op.call, r) (by simp) (Op.call_solve.2 ⟨n, hn⟩))
      (fun ⟨u, hu⟩ => absurd (by rw [hu]; rfl) ((hp (op.call, r) (by simp)).1 u))
    have hprep : ∀ st ∈ s'.log, Checker.Prep st ∨ ∃ c, st = .addClause c := by
      obtain ⟨L, q1, q2⟩ := hsay
      intro st hst
      rw [q1] at hst
      rcases List.mem_append.1 hst with hst | hst
      · exact i2 st hst
      · rcases q2 st hst with (q | q) | ⟨q, _⟩
        · exact .inl q
        · exact .inr q
        · cases q
    have fin : Tells [] s s' → (∀ c, op.call ≠ .addClause c) → Ident s'.vars ∧ (∀ st ∈ s'.log, Checker.Prep st ∨ ∃ c, st = .addClause c) ∧
        viewOf (addsOf s'.log) = viewOf (added (h ++ [(op.call, r)])) ∧
        ∀ c ∈ addsOf s'.log, ∃ d ∈ added (h ++ [(op.call, r)]), copyCanonical c = copyCanonical d := by
      intro k hop
      refine ⟨k.id i1, hprep, ?_⟩
      rw [k.adds, List.append_nil, i3, added_snoc]
      cases hq : op.call <;> first | exact absurd hq (hop _) | (rw [List.append_nil]; exact ⟨rfl, i4⟩)
    rcases hi.step he op with ⟨q, _⟩ | ⟨q, _⟩ | ⟨_, _, _, _, q, _, _, hleg⟩
    · rw [q] at hs; cases hs
    · rw [q] at hs; cases hs
    clear q
    cases op with
    | addClause c =>
      obtain ⟨t, h1, h2⟩ := bind_inv (show (s.loadClause e c >>= fun q => pure (q, [])) = .ok (s', r) from hs)
      cases h2
      rcases St.loadClause_tells he hi i1 hleg h1 with ⟨hu, k⟩ | ⟨c', k, hc⟩
      · refine ⟨k.id i1, hprep, ?_, fun c' hc' => by
          rw [k.adds, List.append_nil] at hc'
          obtain ⟨d, q1, q2⟩ := i4 c' hc'
          exact ⟨d, by rw [added_snoc]; simp [q1], q2⟩⟩
        have hfine : Fine s.log := by
          rintro core hs L1 L2 hL _
          rcases i2 (.failedAssumptions core hs) (by rw [hL]; simp) with q | ⟨_, q⟩
          · exact q
          · cases q
        obtain ⟨_, _, _, _, ht⟩ := x.tracked (by omega)
        obtain ⟨V, k1, k2⟩ := ht.view
        have k1 := k1.full hfine
        have hun := k2.unsat.2 hu
        obtain ⟨k3, rfl⟩ := Checker.shown_iff.1 k1
        rw [← (k3.reorder i2).2, restOf_unsat i2] at hun
        have hun : (viewOf (addsOf s.log)).unsat = true := hun
        rw [k.adds, List.append_nil, added_snoc]
        show _ = viewOf (added h ++ [c])
        rw [viewOf_snoc, i3]
        exact (if_pos (.inl (by rw [← i3]; exact hun))).symm
      · refine ⟨k.id i1, hprep, ?_, fun c1 hc1 => by
          rw [k.adds] at hc1
          rw [added_snoc]
          rcases List.mem_append.1 hc1 with hc1 | hc1
          · obtain ⟨d, q1, q2⟩ := i4 c1 hc1
            exact ⟨d, by simp [q1], q2⟩
          · rw [List.mem_singleton] at hc1
            subst hc1
            exact ⟨c, by simp [Op.call], hc⟩⟩
        rw [k.adds, added_snoc]
        show viewOf (addsOf s.log ++ [c']) = viewOf (added h ++ [c])
        rw [viewOf_snoc, viewOf_snoc, i3]
        simp only [View.step, hc]
    | newVar =>
      obtain ⟨⟨t, u⟩, h1, h2⟩ := bind_inv (show (({ s with formulaEmpty := false } : St α).newUserVar e >>= fun q => pure (q.1, [q.2])) = .ok (s', r) from hs)
      cases h2
      unfold St.newUserVar at h1
      obtain ⟨⟨t2, g⟩, h2, h1⟩ := bind_inv h1
      cases h1
      exact fin ((St.globalFromUser_tells h2).from (s := s) rfl rfl) (by simp [Op.call])
    | assume ls =>
      obtain ⟨t, h1, h2⟩ := bind_inv (show (s.assume e ls >>= fun q => pure (q, [])) = .ok (s', r) from hs)
      cases h2
      exact fin (St.assume_tells h1) (by simp [Op.call])
    | solve n => exact absurd rfl (hns (.solve, r) (by simp [Op.call]))
    | witnessVar u =>
      obtain ⟨t, h1, h2⟩ := bind_inv (show (s.setUserMode e u .witness >>= fun q => pure (q, [])) = .ok (s', r) from hs)
      cases h2
      exact fin (St.setUserMode_tells i1 h1 (by simp)) (by simp [Op.call])
    | sampleVar u =>
      obtain ⟨t, h1, h2⟩ := bind_inv (show (s.setUserMode e u .sample >>= fun q => pure (q, [])) = .ok (s', r) from hs)
      cases h2
      exact fin (St.setUserMode_tells i1 h1 (by simp)) (by simp [Op.call])
    | hideVar u => exact absurd rfl ((hp (.hideVar u, r) (by simp [Op.call])).1 u)
    | observe => exact absurd rfl (hp (.observe, r) (by simp [Op.call])).2

end Varisat.Solver
