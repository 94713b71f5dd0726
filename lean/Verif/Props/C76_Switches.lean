import Verif.Props.C74_SameAnswers
/-!
# C76: clauses can be switched on and off with assumptions

The usual way to retract clauses: each group of clauses has a switch, a literal of a variable that is used for nothing else. The clauses
are added with the negated switch as a further literal, and the switch is assumed when the clauses are meant to count. A group is dropped
for good by adding the negated switch as a unit clause.
-/
namespace Varisat.C76
open Solver Api

/-- Some clauses with their switch. -/
structure Group where
  switch : Lit
  clauses : List (List Lit)

/-- The clauses that are added for a group. -/
def Group.guarded (g : Group) : List (List Lit) := g.clauses.map (g.switch.neg :: ·)

/-- All clauses that are added: those that always count, the groups, and unit clauses for the groups that are dropped. -/
def formula (base : List (List Lit)) (gs : List Group) (dropped : List Lit) : List (List Lit) :=
  base ++ gs.flatMap Group.guarded ++ dropped.map fun a => [a.neg]

/-- The clauses that are meant to count. -/
def meant (base : List (List Lit)) (gs : List Group) (on : Lit → Bool) : List (List Lit) :=
  base ++ (gs.filter fun g => on g.switch).flatMap Group.clauses

/-- The variables of the switches are used for nothing else, and not for two literals. -/
structure Fresh (base : List (List Lit)) (gs : List Group) (as : List Lit) : Prop where
  base : ∀ g ∈ gs, ∀ c ∈ base, ∀ l ∈ c, l.var ≠ g.switch.var
  groups : ∀ g ∈ gs, ∀ g' ∈ gs, ∀ c ∈ g'.clauses, ∀ l ∈ c, l.var ≠ g.switch.var
  assumed : ∀ g ∈ gs, ∀ l ∈ as, l.var ≠ g.switch.var
  single : ∀ g ∈ gs, ∀ g' ∈ gs, g.switch.var = g'.switch.var → g.switch = g'.switch

variable {base : List (List Lit)} {gs : List Group} {as dropped : List Lit} {on : Lit → Bool}

/-- Clauses without switches do not depend on them. -/
theorem flip {τ : Asg} (hf : Fresh base gs as) (hd : ∀ a ∈ dropped, on a = false ∧ ∃ g ∈ gs, g.switch = a) (k : cnfSat τ (meant base gs on)) :
    ∃ σ : Asg, cnfSat σ (formula base gs dropped) ∧ (∀ l : Lit, (∀ g ∈ gs, l.var ≠ g.switch.var) → (l.holds σ ↔ l.holds τ)) ∧
      ∀ g ∈ gs, g.switch.holds σ ↔ on g.switch = true := by
  classical
  let σ : Asg := fun v => if q : ∃ g ∈ gs, g.switch.var = v then (on q.choose.switch == !q.choose.switch.isNeg) else τ v
  have h1 : ∀ l : Lit, (∀ g ∈ gs, l.var ≠ g.switch.var) → (l.holds σ ↔ l.holds τ) := by
    intro l hl
    have : σ l.var = τ l.var := dif_neg (fun ⟨g, q1, q2⟩ => hl g q1 q2.symm)
    unfold Lit.holds
    rw [this]
  have h2 : ∀ g ∈ gs, g.switch.holds σ ↔ on g.switch = true := by
    intro g hg
    have q : ∃ g' ∈ gs, g'.switch.var = g.switch.var := ⟨g, hg, rfl⟩
    have hq : q.choose.switch = g.switch := hf.single _ q.choose_spec.1 _ hg q.choose_spec.2
    have : σ g.switch.var = (on g.switch == !g.switch.isNeg) := by
      show (if q : ∃ g' ∈ gs, g'.switch.var = g.switch.var then _ else _) = _
      rw [dif_pos q, hq]
    unfold Lit.holds
    rw [this]
    cases on g.switch <;> cases g.switch.isNeg <;> simp
  refine ⟨σ, fun c hc => ?_, h1, h2⟩
  simp only [formula, List.mem_append, List.mem_flatMap, List.mem_map] at hc
  rcases hc with (hc | ⟨g, hg, hc⟩) | ⟨a, ha, rfl⟩
  · obtain ⟨l, q1, q2⟩ := k c (List.mem_append_left _ hc)
    exact ⟨l, q1, (h1 l fun g hg => hf.base g hg c hc l q1).2 q2⟩
  · obtain ⟨d, hd, rfl⟩ := List.mem_map.1 hc
    by_cases ho : on g.switch = true
    · obtain ⟨l, q1, q2⟩ := k d (List.mem_append_right _ (List.mem_flatMap.2 ⟨g, List.mem_filter.2 ⟨hg, ho⟩, hd⟩))
      exact ⟨l, by simp [q1], (h1 l fun g' hg' => hf.groups g' hg' g hg d hd l q1).2 q2⟩
    · exact ⟨g.switch.neg, List.mem_cons_self, (Lit.holds_neg σ g.switch).2 fun q => ho ((h2 g hg).1 q)⟩
  · obtain ⟨q1, g, q2, rfl⟩ := hd a ha
    exact ⟨_, List.mem_cons_self, (Lit.holds_neg σ _).2 fun q => by rw [(h2 g q2).1 q] at q1; cases q1⟩

/-- With their switches the clauses of a group hold. -/
theorem unflip {τ : Asg} (k : cnfSat τ (formula base gs dropped)) (ho : ∀ g ∈ gs, on g.switch = true → g.switch.holds τ) :
    cnfSat τ (meant base gs on) := by
  intro c hc
  rcases List.mem_append.1 hc with hc | hc
  · exact k c (by simp [formula, hc])
  · obtain ⟨g, q1, q2⟩ := List.mem_flatMap.1 hc
    obtain ⟨q3, q4⟩ := List.mem_filter.1 q1
    obtain ⟨l, q5, q6⟩ := k (g.switch.neg :: c) (by
      simp only [formula, List.mem_append, List.mem_flatMap]
      exact .inl (.inr ⟨g, q3, List.mem_map.2 ⟨c, q2, rfl⟩⟩))
    rcases List.mem_cons.1 q5 with rfl | q5
    · exact absurd (ho g q3 q4) ((Lit.holds_neg τ _).1 q6)
    · exact ⟨l, q5, q6⟩

variable {h h' : Hist} {b b' : Bool}

/-- **C76**: a solver with switched clauses says what any solver says that has only those clauses that are switched on. -/
theorem switched (x : C74.Says h b) (x' : C74.Says h' b') (hp : Plain h) (hp' : Plain h') (hf : Fresh base gs as)
    (hd : ∀ a ∈ dropped, on a = false ∧ ∃ g ∈ gs, g.switch = a) (hc : added h = formula base gs dropped)
    (ha : ∀ l, l ∈ assumed h ↔ l ∈ as ∨ ∃ g ∈ gs, on g.switch = true ∧ l = g.switch) (hc' : added h' = meant base gs on) (ha' : assumed h' = as) :
    b = b' := by
  have k : b = true ↔ b' = true := by
    rw [x.truth hp, x'.truth hp']
    unfold C74.Sat
    rw [hc, hc', ha']
    constructor
    · rintro ⟨τ, k1, k2⟩
      exact ⟨τ, unflip k1 fun g hg ho => k2 _ ((ha _).2 (.inr ⟨g, hg, ho, rfl⟩)), fun l hl => k2 l ((ha l).2 (.inl hl))⟩
    · rintro ⟨τ, k1, k2⟩
      obtain ⟨σ, q1, q2, q3⟩ := flip hf hd k1
      refine ⟨σ, q1, fun l hl => ?_⟩
      rcases (ha l).1 hl with g | ⟨g, g1, g2, rfl⟩
      · exact (q2 l fun g' hg' => hf.assumed g' hg' l g).2 (k2 l g)
      · exact (q3 g g1).2 g2
  cases b <;> cases b' <;> simp_all

/-- **C76**: the switches in a failed core name groups that are unsatisfiable together with the other clauses. Partial: as C28, no failed
core of one literal was reported before; without this condition the claim is false (`C28.wrong_core`). -/
theorem core_partial {α : Type} [LinearOrder α] {s : St α} (x : Exec s h) (hp : Plain h) (hf : Fresh base gs as)
    (hd : ∀ a ∈ dropped, a ∉ assumed h ∧ ∃ g ∈ gs, g.switch = a) (hc : added h = formula base gs dropped)
    (ha : ∀ l ∈ assumed h, l ∈ as ∨ ∃ g ∈ gs, l = g.switch) {core : List Lit} (hcore : s.failedCore = some core) (hs : ¬ C28.AfterSingle s.log)
    (x' : C74.Says h' b') (hp' : Plain h') (hc' : added h' = meant base gs fun a => decide (a ∈ core)) (ha' : assumed h' = as) : b' = false := by
  obtain ⟨k1, k2⟩ := C28.failed_core_partial x hp hcore
  cases b' with
  | false => rfl
  | true =>
    obtain ⟨τ, t1, t2⟩ := (x'.truth hp').1 rfl
    rw [hc'] at t1
    rw [ha'] at t2
    obtain ⟨σ, q1, q2, q3⟩ := flip (dropped := dropped) hf (fun a g => ⟨by
      have : a ∉ core := fun q => (hd a g).1 (k1 a q)
      simpa using this, (hd a g).2⟩) t1
    rw [← hc] at q1
    refine absurd (fun l hl => ?_) (k2 hs σ q1)
    rcases ha l (k1 l hl) with g | ⟨g, g1, rfl⟩
    · exact (q2 l fun g' hg' => hf.assumed g' hg' l g).2 (t2 l g)
    · exact (q3 g g1).2 (by simpa using hl)

/-! ### Test cases -/

open Sample

/-- For `switched`: two groups that contradict each other with the switches 3 and 4, of which the first was dropped after a question, and a solver that
has only the second. -/
example : ∃ (h h' : Hist) (gs : List Group), C74.Says h true ∧ C74.Says h' true ∧ Plain h ∧ Plain h' ∧ gs.length = 2 ∧ Fresh [[⟨0⟩, ⟨2⟩]] gs [⟨3⟩] ∧
    (∀ a ∈ [(⟨4⟩ : Lit)], (a == ⟨6⟩) = false ∧ ∃ g ∈ gs, g.switch = a) ∧ added h = formula [[⟨0⟩, ⟨2⟩]] gs [⟨4⟩] ∧
    (∀ l, l ∈ assumed h ↔ l ∈ [(⟨3⟩ : Lit)] ∨ ∃ g ∈ gs, (g.switch == ⟨6⟩) = true ∧ l = g.switch) ∧
    added h' = meant [[⟨0⟩, ⟨2⟩]] gs (· == ⟨6⟩) ∧ assumed h' = [⟨3⟩] := by
  refine ⟨_, _, [⟨⟨4⟩, [[⟨1⟩]]⟩, ⟨⟨6⟩, [[⟨0⟩]]⟩],
    C74.says_of (ops := [cl [1, 2], cl [-3, -1], cl [-4, 1], asm [3, 4], .solve 40, cl [-3], asm [-2, 4]]) (rs := [[], [], [], [], [0], [], []]) (b := true) (by decide +kernel),
    C74.says_of (ops := [cl [1, 2], cl [1], asm [-2]]) (rs := [[], [], []]) (b := true) (by decide +kernel), C74.plain_of rfl, C74.plain_of rfl, rfl,
    ⟨by decide, by decide, by decide, by decide⟩, by decide, rfl, ?_, rfl, rfl⟩
  intro l
  show l ∈ [⟨3⟩, ⟨6⟩] ↔ _
  simp

/-- For `core_partial`: with the switches 4, 5 and 6 on, the core names the first and the last group. -/
example : ∃ (s : St Nat) (h h' : Hist) (gs : List Group) (core : List Lit), Exec s h ∧ Plain h ∧ Fresh [[⟨0⟩, ⟨2⟩]] gs [] ∧ added h = formula [[⟨0⟩, ⟨2⟩]] gs [] ∧
    (∀ l ∈ assumed h, l ∈ ([] : List Lit) ∨ ∃ g ∈ gs, l = g.switch) ∧ s.failedCore = some core ∧ core.length = 2 ∧ (assumed h).length = 3 ∧
    ¬ C28.AfterSingle s.log ∧ C74.Says h' false ∧ Plain h' ∧ added h' = meant [[⟨0⟩, ⟨2⟩]] gs (fun a => decide (a ∈ core)) ∧ assumed h' = [] := by
  obtain ⟨s, rs, h1, h2⟩ := see_exec (f := fun s rs => (rs, s.failedCore, s.log.countP (fun x => match x with | .failedAssumptions _ _ => true | _ => false)))
    (ops := [cl [1, 2], cl [-4, -1], cl [-5, 3], cl [-6, -2], asm [4, 5, 6], .solve 20])
    (x := ([[], [], [], [], [], [0]], some [⟨10⟩, ⟨6⟩], 1)) (by decide +kernel)
  simp only [Prod.mk.injEq] at h2
  obtain ⟨rfl, h3, h4⟩ := h2
  refine ⟨s, _, _, [⟨⟨6⟩, [[⟨1⟩]]⟩, ⟨⟨8⟩, [[⟨4⟩]]⟩, ⟨⟨10⟩, [[⟨3⟩]]⟩], _, h1, C74.plain_of rfl, ⟨by decide, by decide, by decide, by decide⟩, rfl, by decide, h3, rfl, rfl, ?_,
    C74.says_of (ops := [cl [1, 2], cl [-1], cl [-2]]) (rs := [[], [], []]) (b := false) (by decide +kernel), C74.plain_of rfl, rfl, rfl⟩
  rintro ⟨L1, L2, l, hs, hL, c, hs', hc⟩
  rw [hL] at h4
  have : 0 < L2.countP (fun x => match x with | .failedAssumptions _ _ => true | _ => false) := List.countP_pos_iff.2 ⟨_, hc, rfl⟩
  simp only [List.countP_append, List.countP_cons, if_true] at h4
  omega

end Varisat.C76
