import Verif.Props.C28_FailedCore
import Verif.Props.C54_Termination
import Verif.Props.C56_CliDecides
import Verif.Props.C73_AfterErrors
/-!
# C74: answers depend on the formula only

Two solvers, with whatever configuration, proof output, self checks and earlier calls, are asked about formulas that are related to each
other. How the formulas are related says how the answers are.
-/
namespace Varisat.C74
open Solver Api

/-- A solver says `b` when it is asked after the calls `h`: with or without proof output. -/
inductive Says : Hist → Bool → Prop
  | plain {α : Type} [LinearOrder α] {s t : St α} {h : Hist} {e : Env α} {n : Nat} {b : Bool} :
    Exec s h → e.Ok → s.step e (.solve n) = .ok (t, [if b then 1 else 0]) → Says h b
  | proof {α : Type} [LinearOrder α] {env : Out.Env} {f : Option Out.Format} {check : Bool} {s t : St α} {o o' : Out.Sess} {h : Hist} {e : Env α}
    {n : Nat} {b : Bool} : Life env f check s o h → s.solveI e env n o = .ok (t, o', .answer b) → Says h b

/-- What is asked. -/
def Sat (h : Hist) : Prop := ∃ τ, cnfSat τ (added h) ∧ allHold τ (assumed h)

theorem Says.truth {h : Hist} {b : Bool} (x : Says h b) (hp : Plain h) : b = true ↔ Sat h := by
  cases x with
  | @plain α _ s t _ e n _ x he hs =>
    have x' : Exec t (h ++ (.solve, [if b then 1 else 0]) :: []) := .call (op := .solve n) e x he hs
    rcases C45.every_answer x' hp with ⟨k, q⟩ | ⟨k, q⟩
    · cases b with
      | true => exact ⟨fun _ => q, fun _ => rfl⟩
      | false => simp at k
    · cases b with
      | true => simp at k
      | false => exact ⟨fun k => (by cases k), fun ⟨τ, k1, k2⟩ => absurd k2 (q τ k1)⟩
  | proof x hs =>
    have k := Solver.C73.answer x hp hs
    cases b with
    | true => exact ⟨fun _ => k, fun _ => rfl⟩
    | false => exact ⟨fun k => (by cases k), fun ⟨τ, k1, k2⟩ => absurd k2 (k τ k1)⟩

/-- A solver without proof output always says something. -/
theorem asked {α : Type} [LinearOrder α] {s : St α} {h : Hist} (x : Exec s h) (hp : Plain h) {e : Env α} (he : e.Ok) : ∃ b, Says h b := by
  obtain ⟨N, s', r, k1, k2, -⟩ := C54.decides x hp he
  rcases k2 with rfl | rfl
  · exact ⟨false, .plain x he (k1 N (Nat.le_refl _))⟩
  · exact ⟨true, .plain x he (k1 N (Nat.le_refl _))⟩

/-- Every clause is trivial or has all the literals of some clause of the other formula. -/
def Covered (f g : List (List Lit)) : Prop := ∀ c ∈ f, (∃ l ∈ c, l.neg ∈ c) ∨ ∃ d ∈ g, ∀ l ∈ d, l ∈ c

theorem Covered.sat {f g : List (List Lit)} (h : Covered f g) {τ : Asg} (k : cnfSat τ g) : cnfSat τ f := by
  intro c hc
  rcases h c hc with ⟨l, h1, h2⟩ | ⟨d, h1, h2⟩
  · rcases Lit.holds_or_neg τ l with q | q
    · exact ⟨l, h1, q⟩
    · exact ⟨_, h2, q⟩
  · obtain ⟨l, q1, q2⟩ := k d h1
    exact ⟨l, h2 l q1, q2⟩

variable {h h' : Hist} {b b' : Bool}

/-- **C74**: clauses and assumptions that are added, or made stronger, do not make a formula satisfiable. -/
theorem monotone (x : Says h b) (x' : Says h' b') (hp : Plain h) (hp' : Plain h') (hc : Covered (added h) (added h'))
    (ha : ∀ l ∈ assumed h, l ∈ assumed h') : b' = true → b = true := by
  rw [x.truth hp, x'.truth hp']
  rintro ⟨τ, k1, k2⟩
  exact ⟨τ, hc.sat k1, fun l hl => k2 l (ha l hl)⟩

/-- **C74**: the order of clauses, literals and assumptions, repetitions, tautologies and subsumed clauses do not matter, nor do
configuration, proof output, self checks, and earlier questions. -/
theorem same (x : Says h b) (x' : Says h' b') (hp : Plain h) (hp' : Plain h') (hc : Covered (added h) (added h'))
    (hc' : Covered (added h') (added h)) (ha : ∀ l, l ∈ assumed h ↔ l ∈ assumed h') : b = b' := by
  have k1 := monotone x x' hp hp' hc (fun l => (ha l).1)
  have k2 := monotone x' x hp' hp hc' (fun l => (ha l).2)
  cases b <;> cases b' <;> simp_all

/-- **C74**: consequences may be added. -/
theorem implied (x : Says h b) (x' : Says h' b') (hp : Plain h) (hp' : Plain h') {cs : List (List Lit)} (hc : added h' = added h ++ cs)
    (hi : ∀ c ∈ cs, Entails (added h) c) (ha : assumed h' = assumed h) : b = b' := by
  have k : b = true ↔ b' = true := by
    rw [x.truth hp, x'.truth hp']
    unfold Sat
    rw [hc, ha]
    refine ⟨fun ⟨τ, k1, k2⟩ => ⟨τ, fun c q => ?_, k2⟩, fun ⟨τ, k1, k2⟩ => ⟨τ, fun c q => k1 c (List.mem_append_left _ q), k2⟩⟩
    rcases List.mem_append.1 q with q | q
    · exact k1 c q
    · exact hi c q τ k1
  cases b <;> cases b' <;> simp_all

/-- **C74**: assuming literals is the same as adding them as unit clauses. -/
theorem units (x : Says h b) (x' : Says h' b') (hp : Plain h) (hp' : Plain h') {ls : List Lit} (hc : added h' = added h ++ ls.map ([·]))
    (ha : ∀ l, l ∈ assumed h ↔ l ∈ assumed h' ∨ l ∈ ls) : b = b' := by
  have k : b = true ↔ b' = true := by
    rw [x.truth hp, x'.truth hp']
    unfold Sat
    rw [hc]
    constructor
    · rintro ⟨τ, k1, k2⟩
      refine ⟨τ, fun c q => ?_, fun l hl => k2 l ((ha l).2 (.inl hl))⟩
      rcases List.mem_append.1 q with q | q
      · exact k1 c q
      · obtain ⟨l, hl, rfl⟩ := List.mem_map.1 q
        exact ⟨l, by simp, k2 l ((ha l).2 (.inr hl))⟩
    · rintro ⟨τ, k1, k2⟩
      refine ⟨τ, fun c q => k1 c (List.mem_append_left _ q), fun l hl => ?_⟩
      rcases (ha l).1 hl with q | q
      · exact k2 l q
      · obtain ⟨y, q1, q2⟩ := k1 [l] (List.mem_append_right _ (List.mem_map.2 ⟨l, q, rfl⟩))
        obtain rfl : y = l := by simpa using q1
        exact q2
  cases b <;> cases b' <;> simp_all

/-- **C74**: a formula is satisfiable exactly if it is with one of a literal and its negation. -/
theorem split {h0 h1 : Hist} {b0 b1 : Bool} (x : Says h b) (x0 : Says h0 b0) (x1 : Says h1 b1) (hp : Plain h) (hp0 : Plain h0) (hp1 : Plain h1)
    (hc0 : added h0 = added h) (hc1 : added h1 = added h) {l : Lit} (ha0 : assumed h0 = assumed h ++ [l]) (ha1 : assumed h1 = assumed h ++ [l.neg]) :
    b = (b0 || b1) := by
  have k : b = true ↔ b0 = true ∨ b1 = true := by
    rw [x.truth hp, x0.truth hp0, x1.truth hp1]
    unfold Sat
    rw [hc0, hc1, ha0, ha1]
    constructor
    · rintro ⟨τ, k1, k2⟩
      rcases Lit.holds_or_neg τ l with q | q
      · refine .inl ⟨τ, k1, fun y hy => ?_⟩
        rcases List.mem_append.1 hy with hy | hy
        · exact k2 y hy
        · obtain rfl : y = l := by simpa using hy
          exact q
      · refine .inr ⟨τ, k1, fun y hy => ?_⟩
        rcases List.mem_append.1 hy with hy | hy
        · exact k2 y hy
        · obtain rfl : y = l.neg := by simpa using hy
          exact q
    · rintro (⟨τ, k1, k2⟩ | ⟨τ, k1, k2⟩) <;> exact ⟨τ, k1, fun y hy => k2 y (List.mem_append_left _ hy)⟩
  cases b <;> cases b0 <;> cases b1 <;> simp_all

/-- The literal a renaming gives for a literal; `ρ` has the literals for the variables. -/
def rename (ρ : Nat → Lit) (l : Lit) : Lit := if l.isNeg then (ρ l.var).neg else ρ l.var

theorem rename_holds (ρ : Nat → Lit) (τ : Asg) (l : Lit) : (rename ρ l).holds τ ↔ l.holds (fun v => decide ((ρ v).holds τ)) := by
  have k : l.holds (fun v => decide ((ρ v).holds τ)) ↔ (decide ((ρ l.var).holds τ) = !l.isNeg) := Iff.rfl
  rw [k]
  unfold rename
  cases hn : l.isNeg
  · simp
  · simp

/-- **C74**: the numbers of variables do not matter, nor which of the two literals of a variable is the negative one. -/
theorem renamed (x : Says h b) (x' : Says h' b') (hp : Plain h) (hp' : Plain h') {ρ : Nat → Lit}
    (hρ : ∀ u v, (ρ u).var = (ρ v).var → u = v) (hc : added h' = (added h).map (·.map (rename ρ))) (ha : assumed h' = (assumed h).map (rename ρ)) :
    b = b' := by
  have k : b = true ↔ b' = true := by
    rw [x.truth hp, x'.truth hp']
    unfold Sat
    rw [hc, ha]
    constructor
    · rintro ⟨τ, k1, k2⟩
      classical
      let σ : Asg := fun w => if q : ∃ v, (ρ v).var = w then (τ q.choose == !(ρ q.choose).isNeg) else true
      have hσ : ∀ v, (ρ v).holds σ ↔ τ v = true := by
        intro v
        have q : ∃ u, (ρ u).var = (ρ v).var := ⟨v, rfl⟩
        have hq : q.choose = v := hρ _ _ q.choose_spec
        have : σ (ρ v).var = (τ v == !(ρ v).isNeg) := by
          show (if q : ∃ u, (ρ u).var = (ρ v).var then _ else _) = _
          rw [dif_pos q, hq]
        unfold Lit.holds
        rw [this]
        cases τ v <;> cases (ρ v).isNeg <;> simp
      have hτ : (fun v => decide ((ρ v).holds σ)) = τ := by
        funext v
        have := hσ v
        cases hv : τ v <;> simp_all
      have hl : ∀ l, (rename ρ l).holds σ ↔ l.holds τ := fun l => by rw [rename_holds, hτ]
      refine ⟨σ, fun c q => ?_, fun l q => ?_⟩
      · obtain ⟨d, hd, rfl⟩ := List.mem_map.1 q
        obtain ⟨l, q1, q2⟩ := k1 d hd
        exact ⟨rename ρ l, List.mem_map.2 ⟨l, q1, rfl⟩, (hl l).2 q2⟩
      · obtain ⟨y, q1, rfl⟩ := List.mem_map.1 q
        exact (hl y).2 (k2 y q1)
    · rintro ⟨σ, k1, k2⟩
      refine ⟨fun v => decide ((ρ v).holds σ), fun c q => ?_, fun l q => ?_⟩
      · obtain ⟨y, q1, q2⟩ := k1 _ (List.mem_map.2 ⟨c, q, rfl⟩)
        obtain ⟨l, q3, rfl⟩ := List.mem_map.1 q1
        exact ⟨l, q3, (rename_holds ρ σ l).1 q2⟩
      · exact (rename_holds ρ σ l).1 (k2 _ (List.mem_map.2 ⟨l, q, rfl⟩))
  cases b <;> cases b' <;> simp_all

section
variable {α : Type} [LinearOrder α] {s : St α}

/-- The literals of a model hold together. -/
theorem model_asg {m : List Lit} (h : ∀ l ∈ m, l.neg ∉ m) : ∃ τ : Asg, ∀ l ∈ m, l.holds τ := by
  refine ⟨fun v => decide (Lit.mk' v true ∈ m), fun l hl => ?_⟩
  unfold Lit.holds
  cases hn : l.isNeg with
  | false =>
    have : Lit.mk' l.var true = l := by have := Lit.mk'_var_neg l; rwa [hn] at this
    simp [this, hl]
  | true =>
    have : Lit.mk' l.var true = l.neg := Lit.ext_var_neg (by simp) (by simp [hn])
    simpa [this] using h l hl

/-- **C74**: a model can be checked with any solver: with its literals as assumptions the formula is satisfiable. -/
theorem model (x : Exec s h) (hp : Plain h) {m : List Lit} (hm : s.modelLits = some (some m)) (x' : Says h' b') (hp' : Plain h')
    (hc : added h' = added h) (ha : ∀ l ∈ assumed h', l ∈ m) : b' = true := by
  obtain ⟨k1, k2, k3⟩ := C26.model_satisfies x hp hm
  obtain ⟨τ, hτ⟩ := model_asg k3
  rw [x'.truth hp']
  refine ⟨τ, fun c hq => ?_, fun l hl => hτ l (ha l hl)⟩
  rw [hc] at hq
  obtain ⟨l, q1, q2⟩ := k1 c hq
  exact ⟨l, q1, hτ l q2⟩

/-- **C74**: a failed core can be checked with any solver: with its literals as assumptions the formula is unsatisfiable. As in C28, this
needs that no failed core of one literal was reported before; without this condition it is false (`core_wrong`). -/
theorem core_partial (x : Exec s h) (hp : Plain h) {core : List Lit} (hcore : s.failedCore = some core) (hs : ¬ C28.AfterSingle s.log)
    (x' : Says h' b') (hp' : Plain h') (hc : Covered (added h) (added h')) (ha : ∀ l ∈ core, l ∈ assumed h') : b' = false := by
  have k := (C28.failed_core_partial x hp hcore).2 hs
  cases b' with
  | false => rfl
  | true =>
    obtain ⟨τ, k1, k2⟩ := (x'.truth hp').1 rfl
    exact absurd (fun l hl => k2 l (ha l hl)) (k τ (hc.sat k1))

/-- Finding of C28: the core that is wrong is satisfiable for every solver that is asked. -/
theorem core_wrong : ∃ (s : St Nat) (h : Hist) (core : List Lit), Exec s h ∧ Plain h ∧ s.failedCore = some core ∧
    ∀ h' b', Says h' b' → Plain h' → added h' = added h → assumed h' = core → b' = true := by
  obtain ⟨s, h, core, k1, k2, k3, -, τ, k4, k5⟩ := C28.wrong_core
  refine ⟨s, h, core, k1, k2, k3, fun h' b' x hp' hc ha => (x.truth hp').2 ⟨τ, ?_, ?_⟩⟩
  · rw [hc]; exact k4
  · rw [ha]; exact k5

/-- **C74**: a model that was excluded by a clause is not found again. -/
theorem excluded (x : Exec s h) (hp : Plain h) {m m' : List Lit} (hm : s.modelLits = some (some m)) (hc : m'.map Lit.neg ∈ added h) :
    ∃ l ∈ m', l.neg ∈ m := by
  obtain ⟨l, k1, k2⟩ := (C26.model_satisfies x hp hm).1 _ hc
  obtain ⟨y, q1, rfl⟩ := List.mem_map.1 k1
  exact ⟨y, q1, k2⟩

end

/-- **C74**: the command line tool has the same exit status for files with the same clauses, up to order, repetitions, tautologies and
subsumed clauses, whatever the layout, the options and the proof file. -/
theorem status {α β : Type} [LinearOrder α] [LinearOrder β] {env : Config.SolverConfig → Solver.Env α} {env' : Config.SolverConfig → Solver.Env β}
    (he : ∀ c, (env c).Ok) (he' : ∀ c, (env' c).Ok) (recip recip' : Config.F32 → Config.F32) (log log' : Cli.Log) {args args' : Cli.Args}
    {i i' : Cli.Source} (hc : args.Clean i) (hc' : args'.Clean i') {d d' : Spec.Dimacs.Doc} (hd : Spec.Dimacs.doc? i.chunks.flatten = some d)
    (hd' : Spec.Dimacs.doc? i'.chunks.flatten = some d') (k : Covered d.clauses d'.clauses) (k' : Covered d'.clauses d.clauses) :
    ∃ N code out out', ∀ n, N ≤ n → Cli.run recip env n log args = some (out, code) ∧ Cli.run recip' env' n log' args' = some (out', code) := by
  obtain ⟨N, out, code, q1, q2⟩ := Cli.C56.document he recip log hc hd
  obtain ⟨N', out', code', q1', q2'⟩ := Cli.C56.document he' recip' log' hc' hd'
  have hcode : code = code' := by
    rcases q2 with ⟨g, τ, hτ⟩ | ⟨g, hu⟩ <;> rcases q2' with ⟨g', τ', hτ'⟩ | ⟨g', hu'⟩
    · rw [g, g']
    · exact absurd (k'.sat hτ) (hu' τ)
    · exact absurd (k.sat hτ') (hu τ')
    · rw [g, g']
  subst hcode
  exact ⟨max N N', code, out, out', fun n hn => ⟨q1 n (le_trans (le_max_left _ _) hn), q1' n (le_trans (le_max_right _ _) hn)⟩⟩

/-! ### Test cases -/

open Sample

/-- The answer after some calls. -/
def ask (s : St Nat) : Option Bool :=
  match s.step Sample.env (.solve 40) with
  | .ok (_, [1]) => some true
  | .ok (_, [0]) => some false
  | _ => none

theorem says_of {ops : List Op} {rs : List (List Nat)} {b : Bool} (k : see (fun s rs => (rs, ask s)) ops = some (rs, some b)) :
    Says ((ops.map Op.call).zip rs) b := by
  obtain ⟨s, rs', h1, h2⟩ := see_exec k
  obtain ⟨rfl, h3⟩ := Prod.mk.injEq _ _ _ _ ▸ h2
  unfold ask at h3
  split at h3
  · rename_i q; cases h3; exact .plain h1 Sample.env_ok q
  · rename_i q; cases h3; exact .plain h1 Sample.env_ok q
  · cases h3

theorem plain_of {h : Hist} (k : h.all (fun y => match y.1 with | .hideVar _ => false | .observe => false | _ => true) = true) : Plain h := by
  intro y hy
  have := List.all_eq_true.1 k y hy
  refine ⟨fun u q => ?_, fun q => ?_⟩ <;> rw [q] at this <;> cases this

/-- For `same`: other order, repeated literals and clauses, a tautology, a subsumed clause and an earlier question. -/
example : ∃ h h' : Hist, Says h false ∧ Says h' false ∧ Plain h ∧ Plain h' ∧ Covered (added h) (added h') ∧ Covered (added h') (added h) ∧
    (∀ l, l ∈ assumed h ↔ l ∈ assumed h') ∧ (added h).length = 3 ∧ (added h').length = 6 ∧ assumed h ≠ assumed h' := by
  refine ⟨_, _, says_of (ops := [cl [1, 2], cl [-1, 3], cl [-2, 3], asm [-3, 4]]) (rs := [[], [], [], []]) (b := false) (by decide +kernel),
    says_of (ops := [cl [3, -2], cl [5, -5, 6], cl [3, -1, 3], asm [], .solve 40, cl [2, 1], cl [1, 2], cl [1, 2, 7], asm [4, -3, 4]])
      (rs := [[], [], [], [], [1], [], [], [], []]) (b := false) (by decide +kernel), plain_of rfl, plain_of rfl, ?_, ?_, ?_, rfl, rfl, by decide⟩
  · unfold Covered; decide
  · unfold Covered; decide
  · intro l
    show l ∈ [Lit.fromDimacs (-3), Lit.fromDimacs 4] ↔ l ∈ [Lit.fromDimacs 4, Lit.fromDimacs (-3), Lit.fromDimacs 4]
    simp only [List.mem_cons, List.not_mem_nil, or_false]
    tauto

/-- For `monotone`, `units` and `split`: a satisfiable formula, and the same with the literals 1 and -1 assumed or added. -/
example : ∃ h h0 h1 h2 : Hist, Says h true ∧ Says h0 false ∧ Says h1 true ∧ Says h2 false ∧ Plain h ∧ Plain h0 ∧ Plain h1 ∧ Plain h2 ∧
    added h0 = added h ∧ added h1 = added h ∧ assumed h0 = assumed h ++ [⟨0⟩] ∧ assumed h1 = assumed h ++ [Lit.neg ⟨0⟩] ∧
    added h2 = added h0 ++ [(⟨0⟩ : Lit)].map ([·]) ∧ (∀ l, l ∈ assumed h0 ↔ l ∈ assumed h2 ∨ l ∈ [(⟨0⟩ : Lit)]) := by
  refine ⟨_, _, _, _, says_of (ops := [cl [-1, 2], cl [-1, -2, 3], asm [-3]]) (rs := [[], [], []]) (b := true) (by decide +kernel),
    says_of (ops := [cl [-1, 2], cl [-1, -2, 3], asm [-3, 1]]) (rs := [[], [], []]) (b := false) (by decide +kernel),
    says_of (ops := [cl [-1, 2], cl [-1, -2, 3], asm [-3, -1]]) (rs := [[], [], []]) (b := true) (by decide +kernel),
    says_of (ops := [cl [-1, 2], cl [-1, -2, 3], asm [-3], cl [1]]) (rs := [[], [], [], []]) (b := false) (by decide +kernel),
    plain_of rfl, plain_of rfl, plain_of rfl, plain_of rfl, rfl, rfl, rfl, rfl, rfl, ?_⟩
  intro l
  show l ∈ [Lit.fromDimacs (-3), Lit.fromDimacs 1] ↔ l ∈ [Lit.fromDimacs (-3)] ∨ l ∈ [(⟨0⟩ : Lit)]
  rw [show Lit.fromDimacs 1 = ⟨0⟩ by decide]
  simp only [List.mem_cons, List.not_mem_nil, or_false]

/-- For `implied`: a resolvent is added. -/
example : ∃ (h h' : Hist), Says h true ∧ Says h' true ∧ Plain h ∧ Plain h' ∧ added h' = added h ++ [[⟨2⟩, ⟨4⟩]] ∧ Entails (added h) [⟨2⟩, ⟨4⟩] ∧
    assumed h' = assumed h := by
  refine ⟨_, _, says_of (ops := [cl [1, 2], cl [-1, 3]]) (rs := [[], []]) (b := true) (by decide +kernel),
    says_of (ops := [cl [1, 2], cl [-1, 3], cl [2, 3]]) (rs := [[], [], []]) (b := true) (by decide +kernel), plain_of rfl, plain_of rfl, rfl, ?_, rfl⟩
  intro τ k
  have k1 := k [⟨0⟩, ⟨2⟩] (by decide)
  have k2 := k [⟨1⟩, ⟨4⟩] (by decide)
  simp [clauseSat, Lit.holds, Lit.var, Lit.isNeg] at k1 k2 ⊢
  cases h : τ 0 <;> simp_all

/-- For `renamed`: variables are moved by one, and the literals of even variables exchanged. -/
example : ∃ (h h' : Hist) (ρ : Nat → Lit), Says h false ∧ Says h' false ∧ Plain h ∧ Plain h' ∧ (∀ u v, (ρ u).var = (ρ v).var → u = v) ∧
    added h' = (added h).map (·.map (rename ρ)) ∧ assumed h' = (assumed h).map (rename ρ) ∧ (assumed h).length = 2 := by
  refine ⟨_, _, fun v => Lit.mk' (v + 1) (v % 2 == 1),
    says_of (ops := [cl [-1, 2], cl [-2, 3], asm [1, -3]]) (rs := [[], [], []]) (b := false) (by decide +kernel),
    says_of (ops := [cl [2, 3], cl [-3, -4], asm [-2, 4]]) (rs := [[], [], []]) (b := false) (by decide +kernel), plain_of rfl, plain_of rfl, ?_, rfl, rfl, rfl⟩
  intro u v k
  simpa using k

/-- For `model`: the model of one solver is confirmed by another. -/
example : ∃ (s : St Nat) (h h' : Hist) (m : List Lit), Exec s h ∧ Plain h ∧ s.modelLits = some (some m) ∧ m.length = 3 ∧ Says h' true ∧ Plain h' ∧
    added h' = added h ∧ ∀ l ∈ assumed h', l ∈ m := by
  obtain ⟨s, rs, h1, h2⟩ := see_exec (f := fun s rs => (rs, s.modelLits)) (ops := [cl [1, 2], cl [-1, 3], cl [-2, -3], asm [-1], .solve 20])
    (x := ([[], [], [], [], [1]], some (some [⟨1⟩, ⟨2⟩, ⟨5⟩]))) (by decide +kernel)
  obtain ⟨rfl, h3⟩ := Prod.mk.injEq _ _ _ _ ▸ h2
  exact ⟨s, _, _, _, h1, plain_of rfl, h3, rfl, says_of (ops := [cl [1, 2], cl [-1, 3], cl [-2, -3], asm [-3, 2, -1]])
    (rs := [[], [], [], []]) (b := true) (by decide +kernel), plain_of rfl, rfl, by decide⟩

end Varisat.C74
