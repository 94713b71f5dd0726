import Verif.Proof.Solver.Exec
/-!
# Histories without hidden variables, and reading the model
-/
namespace Varisat.Solver
open Api (Abs Hist Plain added assumed)

variable {α : Type} [LinearOrder α]

/-- Every user variable stands for the variable with the same number. -/
structure Plain' (a : Abs) : Prop where
  name : ∀ u, a.name u = if u < a.len then some u else none
  next : a.next = a.len

theorem Plain'.create {a : Abs} (h : Plain' a) {u : Nat} (hu : u ≤ a.len) :
    Plain' (a.create u) ∧ (a.create u).len = max a.len (u + 1) := by
  unfold Abs.create
  rw [h.name u]
  by_cases k : u < a.len
  · rw [if_pos k, if_neg (by simp)]
    exact ⟨h, by omega⟩
  · rw [if_neg k, if_pos rfl]
    have hu : u = a.len := by omega
    subst hu
    refine ⟨⟨fun v => ?_, ?_⟩, rfl⟩
    · simp only
      rw [h.name v, h.next]
      by_cases k1 : v = a.len
      · subst k1; simp
      · rw [if_neg k1]
        by_cases k2 : v < a.len
        · rw [if_pos k2, if_pos (by omega)]
        · rw [if_neg k2, if_neg (by omega)]
    · simp only; rw [h.next]; omega

theorem Plain'.creates {a : Abs} (h : Plain' a) : ∀ (n : Nat),
    Plain' ((List.range' a.len n).foldl Abs.create a) ∧ ((List.range' a.len n).foldl Abs.create a).len = a.len + n
  | 0 => ⟨h, rfl⟩
  | n + 1 => by
    obtain ⟨h1, h2⟩ := Plain'.creates h n
    rw [List.range'_concat, List.foldl_append]
    simp only [List.foldl_cons, List.foldl_nil, Nat.one_mul]
    obtain ⟨k1, k2⟩ := h1.create (u := a.len + n) (by omega)
    exact ⟨k1, by rw [k2, h2]; omega⟩

theorem Plain'.ensure {a : Abs} (h : Plain' a) (u : Nat) :
    Plain' (a.ensure u) ∧ a.len ≤ (a.ensure u).len ∧ u < (a.ensure u).len := by
  unfold Abs.ensure
  obtain ⟨h1, h2⟩ := h.creates (u - a.len)
  obtain ⟨k1, k2⟩ := h1.create (u := u) (by omega)
  exact ⟨k1, by omega, by omega⟩

theorem Plain'.ensureLits : ∀ (ls : List Lit) {a : Abs}, Plain' a →
    Plain' (a.ensureLits ls) ∧ a.len ≤ (a.ensureLits ls).len ∧ ∀ l ∈ ls, l.var < (a.ensureLits ls).len
  | [], a, h => ⟨h, Nat.le_refl _, fun l hl => by cases hl⟩
  | l :: ls, a, h => by
    obtain ⟨h1, h2, h3⟩ := h.ensure l.var
    obtain ⟨k1, k2, k3⟩ := Plain'.ensureLits ls h1
    refine ⟨k1, Nat.le_trans h2 k2, fun m hm => ?_⟩
    rcases List.mem_cons.1 hm with rfl | hm
    · exact Nat.lt_of_lt_of_le h3 k2
    · exact k3 m hm

theorem Plain'.lit {a : Abs} (h : Plain' a) {l : Lit} (hl : l.var < a.len) : a.lit l = l := by
  unfold Abs.lit
  rw [h.name, if_pos hl]
  exact Lit.ext_var_neg (by simp) (by simp)

theorem Plain'.lits {a : Abs} (h : Plain' a) (ls : List Lit) :
    ls.map (a.ensureLits ls).lit = ls := by
  obtain ⟨k1, _, k3⟩ := Plain'.ensureLits ls h
  conv_rhs => rw [← List.map_id ls]
  exact List.map_congr_left (fun l hl => k1.lit (k3 l hl))

theorem Plain'.congr {a b : Abs} (h : Plain' a) (h1 : b.name = a.name) (h2 : b.len = a.len) (h3 : b.next = a.next) : Plain' b :=
  ⟨fun u => by rw [h1, h2]; exact h.name u, by rw [h3, h2]; exact h.next⟩

theorem create_frame (a : Abs) (u : Nat) : (a.create u).clauses = a.clauses ∧ (a.create u).assumptions = a.assumptions := by
  unfold Abs.create; split <;> exact ⟨rfl, rfl⟩

theorem creates_frame : ∀ (us : List Nat) (a : Abs),
    (us.foldl Abs.create a).clauses = a.clauses ∧ (us.foldl Abs.create a).assumptions = a.assumptions
  | [], a => ⟨rfl, rfl⟩
  | u :: us, a => by
    obtain ⟨h1, h2⟩ := creates_frame us (a.create u)
    exact ⟨h1.trans (create_frame a u).1, h2.trans (create_frame a u).2⟩

theorem ensure_frame (a : Abs) (u : Nat) : (a.ensure u).clauses = a.clauses ∧ (a.ensure u).assumptions = a.assumptions := by
  unfold Abs.ensure
  obtain ⟨h1, h2⟩ := creates_frame (List.range' a.len (u - a.len)) a
  obtain ⟨h3, h4⟩ := create_frame ((List.range' a.len (u - a.len)).foldl Abs.create a) u
  exact ⟨h3.trans h1, h4.trans h2⟩

theorem ensureLits_frame : ∀ (ls : List Lit) (a : Abs),
    (a.ensureLits ls).clauses = a.clauses ∧ (a.ensureLits ls).assumptions = a.assumptions
  | [], a => ⟨rfl, rfl⟩
  | l :: ls, a => by
    obtain ⟨h1, h2⟩ := ensureLits_frame ls (a.ensure l.var)
    exact ⟨h1.trans (ensure_frame a l.var).1, h2.trans (ensure_frame a l.var).2⟩

theorem added_snoc (h : Hist) (c : Api.Call) (r : List Nat) :
    added (h ++ [(c, r)]) = added h ++ (match c with | .addClause d => [d] | _ => []) := by
  unfold added
  rw [List.filterMap_append]
  cases c <;> rfl

theorem assumed_snoc (h : Hist) (c : Api.Call) (r : List Nat) :
    assumed (h ++ [(c, r)]) = match c with | .assume ls => ls | _ => assumed h := by
  unfold assumed
  rw [List.foldl_append]
  cases c <;> rfl

/-- What the abstract state is after a history without hidden variables. -/
structure PlainRun (h : Hist) (a : Abs) : Prop where
  p : Plain' a
  clauses : a.clauses = added h ∨ (Unsat a.clauses ∧ ∀ c ∈ a.clauses, c ∈ added h)
  assumptions : a.assumptions = assumed h
  lt : ∀ c ∈ a.clauses, ∀ l ∈ c, l.var < a.len
  ltA : ∀ l ∈ a.assumptions, l.var < a.len

theorem PlainRun.of {h : Hist} {a : Abs} (r : Abs.Run {} h a) (hp : Plain h) : PlainRun h a := by
  induction r with
  | nil =>
    exact ⟨⟨fun u => rfl, rfl⟩, .inl rfl, rfl, (fun c hc => by cases hc), (fun l hl => by cases hl)⟩
  | @snoc b c hs o r _ hst ih =>
    have ih := ih (fun x hx => hp x (by simp [hx]))
    have hpo := hp (o, r) (by simp)
    have mono : ∀ {b' : Abs}, Plain' b' → b'.clauses = b.clauses → b'.assumptions = b.assumptions → b.len ≤ b'.len →
        added (hs ++ [(o, r)]) = added hs → assumed (hs ++ [(o, r)]) = assumed hs → PlainRun (hs ++ [(o, r)]) b' := by
      intro b' h1 h2 h3 h4 h5 h6
      refine ⟨h1, ?_, ?_, ?_, ?_⟩
      · rw [h2, h5]; exact ih.clauses
      · rw [h3, h6]; exact ih.assumptions
      · rw [h2]; intro c hc l hl; exact Nat.lt_of_lt_of_le (ih.lt c hc l hl) h4
      · rw [h3]; intro l hl; exact Nat.lt_of_lt_of_le (ih.ltA l hl) h4
    have ens : ∀ u, added (hs ++ [(o, r)]) = added hs → assumed (hs ++ [(o, r)]) = assumed hs →
        PlainRun (hs ++ [(o, r)]) (b.ensure u) := fun u h5 h6 =>
      mono (ih.p.ensure u).1 (ensure_frame b u).1 (ensure_frame b u).2 (ih.p.ensure u).2.1 h5 h6
    cases hst with
    | addClause c =>
      obtain ⟨k1, k2, k3⟩ := Plain'.ensureLits c ih.p
      have kl := ih.p.lits c
      refine ⟨k1.congr rfl rfl rfl, ?_, ?_, ?_, ?_⟩
      · rw [added_snoc]
        simp only [kl]
        rcases ih.clauses with q | ⟨q1, q2⟩
        · left; rw [q]
        · right
          refine ⟨fun τ hτ => q1 τ (fun d hd => hτ d (by simp [hd])), fun d hd => ?_⟩
          rcases List.mem_append.1 hd with hd | hd
          · exact List.mem_append.2 (.inl (q2 d hd))
          · exact List.mem_append.2 (.inr hd)
      · rw [assumed_snoc]; simp only; rw [(ensureLits_frame c b).2]; exact ih.assumptions
      · simp only [kl]
        intro d hd l hl
        rcases List.mem_append.1 hd with hd | hd
        · exact Nat.lt_of_lt_of_le (ih.lt d hd l hl) k2
        · simp only [List.mem_singleton] at hd; subst hd; exact k3 l hl
      · simp only; rw [(ensureLits_frame c b).2]
        intro l hl; exact Nat.lt_of_lt_of_le (ih.ltA l hl) k2
    | ignored c hu =>
      refine ⟨ih.p, .inr ⟨hu, fun d hd => ?_⟩, ?_, ih.lt, ih.ltA⟩
      · rw [added_snoc]
        refine List.mem_append.2 (.inl ?_)
        rcases ih.clauses with q | ⟨q1, q2⟩
        · rw [← q]; exact hd
        · exact q2 d hd
      · rw [assumed_snoc]; exact ih.assumptions
    | newVar u h1 h2 =>
      obtain ⟨k1, k2⟩ := ih.p.create h2
      exact mono k1 (create_frame b u).1 (create_frame b u).2 (by omega) (by rw [added_snoc]; simp) (by rw [assumed_snoc])
    | assume ls =>
      obtain ⟨k1, k2, k3⟩ := Plain'.ensureLits ls ih.p
      have kl := ih.p.lits ls
      refine ⟨k1.congr rfl rfl rfl, ?_, ?_, ?_, ?_⟩
      · rw [added_snoc]; simp only [List.append_nil]; rw [(ensureLits_frame ls b).1]; exact ih.clauses
      · rw [assumed_snoc]; simp only [kl]
      · simp only; rw [(ensureLits_frame ls b).1]
        intro c hc l hl; exact Nat.lt_of_lt_of_le (ih.lt c hc l hl) k2
      · simp only [kl]; exact k3
    | sat _ => exact mono ih.p rfl rfl (Nat.le_refl _) (by rw [added_snoc]; simp) (by rw [assumed_snoc])
    | unsat _ => exact mono ih.p rfl rfl (Nat.le_refl _) (by rw [added_snoc]; simp) (by rw [assumed_snoc])
    | witnessVar u => exact ens u (by rw [added_snoc]; simp) (by rw [assumed_snoc])
    | sampleVar u => exact ens u (by rw [added_snoc]; simp) (by rw [assumed_snoc])
    | hideVar u => exact absurd rfl (hpo.1 u)
    | observe => exact absurd rfl hpo.2

/-- The formula of the specification and the clauses added have the same satisfying assignments. -/
theorem PlainRun.iff {h : Hist} {a : Abs} (r : PlainRun h a) (τ : Asg) : cnfSat τ a.clauses ↔ cnfSat τ (added h) := by
  rcases r.clauses with q | ⟨q1, q2⟩
  · rw [q]
  · exact ⟨fun k => absurd k (q1 τ), fun k c hc => k c (q2 c hc)⟩

/-- The shorter history. -/
theorem run_snoc {a c : Abs} {h : Hist} {o : Api.Call} {r : List Nat} (x : Abs.Run a (h ++ [(o, r)]) c) :
    ∃ b, Abs.Run a h b ∧ Abs.Step b o r c := by
  generalize hk : h ++ [(o, r)] = k at x
  cases x with
  | nil => simp at hk
  | @snoc b _ hs o' r' h1 h2 =>
    obtain ⟨rfl, h3⟩ := List.append_inj' hk rfl
    simp only [List.cons.injEq, and_true, Prod.mk.injEq] at h3
    obtain ⟨rfl, rfl⟩ := h3
    exact ⟨b, h1, h2⟩

theorem run_prefix {a c : Abs} {h : Hist} : ∀ {h' : Hist}, Abs.Run a (h ++ h') c → ∃ b, Abs.Run a h b := by
  intro h'
  intro x
  generalize hk : h ++ h' = k at x
  induction x generalizing h' with
  | nil =>
    obtain rfl : h = [] := (List.append_eq_nil_iff.1 hk).1
    exact ⟨_, .nil _⟩
  | @snoc b c hs o r x1 x2 ih =>
    rcases List.eq_nil_or_concat h' with rfl | ⟨h1, y, rfl⟩
    · rw [List.append_nil] at hk
      exact ⟨c, by rw [hk]; exact .snoc x1 x2⟩
    · rw [List.concat_eq_append, ← List.append_assoc] at hk
      exact ih (List.append_inj' hk rfl).1

/-! ### The model -/

theorem mapM_id_some {β : Type} : ∀ {L : List (Option β)} {ls : List β}, L.mapM id = some ls → L = ls.map some
  | [], ls, h => by
    have : ls = [] := by simpa using h.symm
    subst this; rfl
  | x :: L, ls, h => by
    rw [List.mapM_cons] at h
    cases x with
    | none => cases h
    | some y =>
      cases hL : L.mapM id with
      | none => rw [hL] at h; cases h
      | some ys =>
        rw [hL] at h
        obtain rfl : y :: ys = ls := by simpa using h
        rw [mapM_id_some hL]; rfl

theorem mapM_id_all {β : Type} : ∀ {L : List (Option β)}, (∀ x ∈ L, x ≠ none) → ∃ ls, L.mapM id = some ls
  | [], _ => ⟨[], rfl⟩
  | none :: L, h => absurd rfl (h none (by simp))
  | some y :: L, h => by
    obtain ⟨ls, hls⟩ := mapM_id_all (L := L) (fun x hx => h x (by simp [hx]))
    exact ⟨y :: ls, by rw [List.mapM_cons, hls]; rfl⟩

theorem St.modelLits_none {s : St α} : s.modelLits = some none ↔ s.sat ≠ .sat := by
  unfold St.modelLits
  by_cases h : s.sat = .sat
  · rw [if_pos h]
    simp [h]
  · rw [if_neg h]; simp [h]

theorem St.modelLits_some {s : St α} (hv : VInv s.vars) {m : List Lit} (h : s.modelLits = some (some m)) :
    s.sat = .sat ∧ ∀ l, l ∈ m ↔ ∃ g, s.vars.gfu.map l.var = some g ∧ s.model[g]? = some (some (!l.isNeg)) := by
  unfold St.modelLits at h
  by_cases hs : s.sat = .sat
  swap
  · rw [if_neg hs] at h; simp at h
  refine ⟨hs, fun l => ?_⟩
  rw [if_pos hs] at h
  obtain ⟨ls, h1, h2⟩ := Option.map_eq_some_iff.1 h
  obtain rfl := Option.some.inj h2
  have h3 := mapM_id_some h1
  have h4 : l ∈ ls.filterMap id ↔ some (some l) ∈ ls.map some := by
    simp
  rw [h4, ← h3]
  simp only [List.mem_filterMap, List.mem_range, Option.map_eq_some_iff]
  constructor
  · rintro ⟨u, h5, g, h6, v, h7, h8⟩
    obtain ⟨b, h9, h10⟩ := h8
    subst h9
    subst h10
    exact ⟨g, by simpa using h6, by simpa using h7⟩
  · rintro ⟨g, h5, h6⟩
    refine ⟨l.var, hv.ulen _ _ h5, g, h5, some (!l.isNeg), h6, ?_⟩
    exact ⟨_, rfl, Lit.ext_var_neg (by simp) (by simp)⟩

theorem St.modelLits_ok {s : St α} (hs : s.sat = .sat)
    (h : ∀ u g, s.vars.gfu.map u = some g → g < s.model.length) : ∃ m, s.modelLits = some (some m) := by
  unfold St.modelLits
  rw [if_pos hs]
  obtain ⟨ls, hls⟩ := mapM_id_all (L := (List.range s.vars.gfu.len).filterMap (fun u =>
      (s.vars.gfu.map u).map (fun g => s.model[g]?.map (fun v => v.map (fun b => Lit.mk' u b))))) (by
    intro x hx hn
    subst hn
    simp only [List.mem_filterMap, List.mem_range, Option.map_eq_some_iff] at hx
    obtain ⟨u, _, g, h1, h2⟩ := hx
    rw [List.getElem?_eq_getElem (h u g h1)] at h2
    cases h2)
  exact ⟨_, by rw [hls]; rfl⟩

/-- The model seen by the user belongs to a satisfying assignment and gives a value to all variables
of the formula that still have a name. -/
theorem Inv.model {a : Abs} {ids : Nat → Nat} {s : St α} (h : Inv a ids s) {m : List Lit} (hm : s.modelLits = some (some m)) :
    (∃ τ, cnfSat τ a.clauses ∧ allHold τ a.assumptions ∧ ∀ l ∈ m, ∃ i, a.name l.var = some i ∧ τ i = !l.isNeg) ∧
    (∀ u i, a.name u = some i → Occurs a.clauses a.assumptions i → ∃ b, Lit.mk' u b ∈ m) ∧
    ∀ l ∈ m, ∀ k ∈ m, l.var = k.var → l = k := by
  obtain ⟨hs, hl⟩ := St.modelLits_some h.b.v hm
  obtain ⟨⟨τ, t1, t2, t3⟩, hall⟩ := h.b.sat hs
  refine ⟨⟨τ, t1, t2, fun l hlm => ?_⟩, fun u i hu ho => ?_, fun l h1 k h2 hv => ?_⟩
  · obtain ⟨g, k1, k2⟩ := (hl l).1 hlm
    obtain ⟨d, q1, q2, _⟩ := h.b.v.ulive _ _ k1
    exact ⟨ids g, by rw [h.n.name, k1]; rfl, t3 g _ ⟨d, q1, q2⟩ k2⟩
  · rw [h.n.name] at hu
    obtain ⟨g, k1, k2⟩ := Option.map_eq_some_iff.1 hu
    obtain ⟨d, q1, q2, _⟩ := h.b.v.ulive _ _ k1
    obtain ⟨b, hb⟩ := hall g ⟨d, q1, q2⟩ (by rw [k2]; exact ho)
    exact ⟨b, (hl _).2 ⟨g, by simpa using k1, by simpa using hb⟩⟩
  · obtain ⟨g, k1, k2⟩ := (hl l).1 h1
    obtain ⟨g', k3, k4⟩ := (hl k).1 h2
    rw [← hv, k1] at k3
    obtain rfl := Option.some.inj k3
    rw [k2] at k4
    exact Lit.ext_var_neg hv (by simpa using k4)

/-- Without hidden variables: the model in terms of the calls. -/
theorem Inv.model_plain {a : Abs} {ids : Nat → Nat} {s : St α} {h : Hist} (h2 : Inv a ids s) (h1 : Abs.Run {} h a) (hp : Plain h) {m : List Lit}
    (hm : s.modelLits = some (some m)) :
    (∀ c ∈ added h, ∃ l ∈ c, l ∈ m) ∧ (∀ l ∈ assumed h, l ∈ m) ∧ ∀ l ∈ m, l.neg ∉ m := by
  have hr := PlainRun.of h1 hp
  obtain ⟨⟨τ, t1, t2, t3⟩, hall, hcons⟩ := h2.model hm
  have key : ∀ l, l.holds τ → Occurs a.clauses a.assumptions l.var → l.var < a.len → l ∈ m := by
    intro l hl ho hlt
    have hn : a.name l.var = some l.var := by rw [hr.p.name, if_pos hlt]
    obtain ⟨b, hb⟩ := hall _ _ hn ho
    obtain ⟨i, k1, k2⟩ := t3 _ hb
    simp only [Lit.var_mk', Lit.isNeg_mk', Bool.not_not] at k1 k2
    rw [hn] at k1
    obtain rfl := Option.some.inj k1
    have : Lit.mk' l.var b = l := by
      refine Lit.ext_var_neg (by simp) ?_
      unfold Lit.holds at hl
      rw [hl] at k2
      simp [← k2]
    rw [← this]; exact hb
  refine ⟨fun c hc => ?_, fun l hl => ?_, fun l hl hn => ?_⟩
  · have hc' : c ∈ a.clauses := by
      rcases hr.clauses with q | ⟨q1, _⟩
      · rw [q]; exact hc
      · exact absurd t1 (q1 τ)
    obtain ⟨l, hl, hv⟩ := t1 c hc'
    exact ⟨l, hl, key l hv (.inl ⟨c, hc', l, hl, rfl⟩) (hr.lt c hc' l hl)⟩
  · rw [← hr.assumptions] at hl
    exact key l (t2 l hl) (.inr ⟨l, hl, rfl⟩) (hr.ltA l hl)
  · have := hcons l hl l.neg hn (by simp)
    exact absurd this (Lit.ne_neg l)

end Varisat.Solver
