import Mathlib.Data.Fintype.BigOperators
import Mathlib.Data.Fintype.Pi
import Verif.Props.C74_SameAnswers
/-!
# C75: all solutions can be enumerated

The usual loop: `while solver.solve()? { let m = solver.model(); solver.add_clause(negation of m) }`, where only the literals of some
variables may be used in the clause, to enumerate the values of these variables in the solutions.
-/
namespace Varisat.C75
open Solver Api

variable {α : Type} [LinearOrder α] {P : Nat → Bool}

/-- The part of a model for the variables in `P`. -/
def part (P : Nat → Bool) (m : List Lit) : List Lit := m.filter fun l => P l.var

/-- The clause that excludes a model. -/
def exclude (P : Nat → Bool) (m : List Lit) : List Lit := (part P m).map Lit.neg

theorem mem_part {m : List Lit} {l : Lit} : l ∈ part P m ↔ l ∈ m ∧ P l.var = true := by simp [part]

/-- The loop ends with the models `ms`. Each call may have its own parameters. -/
inductive Loop (P : Nat → Bool) : St α → List (List Lit) → Prop
  | done {s t : St α} {e : Env α} {n : Nat} : e.Ok → s.step e (.solve n) = .ok (t, [0]) → Loop P s []
  | next {s t u : St α} {e : Env α} {n : Nat} {m : List Lit} {r : List Nat} {ms : List (List Lit)} : e.Ok → s.step e (.solve n) = .ok (t, [1]) →
    t.modelLits = some (some m) → t.step e (.addClause (exclude P m)) = .ok (u, r) → Loop P u ms → Loop P s (m :: ms)

theorem Plain.snoc {h : Hist} (hp : Plain h) {y : Call × List Nat} (h1 : ∀ u, y.1 ≠ .hideVar u) (h2 : y.1 ≠ .observe) : Plain (h ++ [y]) := by
  intro z hz
  rcases List.mem_append.1 hz with hz | hz
  · exact hp z hz
  · obtain rfl : z = y := by simpa using hz
    exact ⟨h1, h2⟩

theorem add_result {s t : St α} {e : Env α} {c : List Lit} {r : List Nat} (k : s.step e (.addClause c) = .ok (t, r)) : r = [] := by
  unfold St.step at k
  simp only at k
  obtain ⟨u, q1, q2⟩ := bind_inv k
  cases q2
  rfl

/-- **C75**: the models satisfy the formula and the assumptions, each of them differs from the others in a variable, and each solution
is one of them. -/
theorem exact {s : St α} {ms : List (List Lit)} (w : Loop P s ms) : ∀ {h : Hist}, Exec s h → Plain h →
    (∀ m ∈ ms, (∀ c ∈ added h, ∃ l ∈ c, l ∈ m) ∧ (∀ l ∈ assumed h, l ∈ m) ∧ ∀ l ∈ m, l.neg ∉ m) ∧
    ms.Pairwise (fun m m' => ∃ l ∈ m, P l.var = true ∧ l.neg ∈ m') ∧
    ∀ τ, cnfSat τ (added h) → allHold τ (assumed h) → ∃ m ∈ ms, allHold τ (part P m) := by
  induction w with
  | @done s t e n he hs =>
    intro h x hp
    refine ⟨fun m hm => (by cases hm), .nil, fun τ k1 k2 => ?_⟩
    have x' : Exec t (h ++ (.solve, [0]) :: []) := .call (op := .solve n) e x he hs
    rcases C45.every_answer x' hp with ⟨k, _⟩ | ⟨_, k⟩
    · cases k
    · exact absurd k2 (k τ k1)
  | @next s t u e n m r ms he hs hm ha w ih =>
    intro h x hp
    have x1 : Exec t (h ++ [(.solve, [1])]) := .call (op := .solve n) e x he hs
    have p1 : Plain (h ++ [(.solve, [1])]) := Plain.snoc hp (fun u k => by cases k) (fun k => by cases k)
    have x2 : Exec u (h ++ [(.solve, [1])] ++ [(.addClause (exclude P m), r)]) := .call (op := .addClause _) e x1 he ha
    have p2 : Plain (h ++ [(.solve, [1])] ++ [(.addClause (exclude P m), r)]) := Plain.snoc p1 (fun u k => by cases k) (fun k => by cases k)
    have a1 : added (h ++ [(.solve, [1])]) = added h := by rw [added_snoc]; simp
    have s1 : assumed (h ++ [(.solve, [1])]) = assumed h := by rw [assumed_snoc]
    have a2 : added (h ++ [(.solve, [1])] ++ [(.addClause (exclude P m), r)]) = added h ++ [exclude P m] := by rw [added_snoc, a1]
    have s2 : assumed (h ++ [(.solve, [1])] ++ [(.addClause (exclude P m), r)]) = assumed h := by rw [assumed_snoc]; exact s1
    obtain ⟨k1, k2, k3⟩ := ih x2 p2
    rw [a2, s2] at k1 k3
    have g := C26.model_satisfies x1 p1 hm
    rw [a1, s1] at g
    refine ⟨fun m' hm' => ?_, .cons (fun m' hm' => ?_) k2, fun τ t1 t2 => ?_⟩
    · rcases List.mem_cons.1 hm' with rfl | hm'
      · exact g
      · obtain ⟨q1, q2⟩ := k1 m' hm'
        exact ⟨fun c hc => q1 c (List.mem_append_left _ hc), q2⟩
    · obtain ⟨l, q1, q2⟩ := (k1 m' hm').1 _ (List.mem_append_right _ (List.mem_singleton.2 rfl))
      obtain ⟨y, q3, rfl⟩ := List.mem_map.1 q1
      exact ⟨y, (mem_part.1 q3).1, (mem_part.1 q3).2, q2⟩
    · by_cases hτ : allHold τ (part P m)
      · exact ⟨m, by simp, hτ⟩
      · have : clauseSat τ (exclude P m) := by
          unfold allHold at hτ
          push Not at hτ
          obtain ⟨l, q1, q2⟩ := hτ
          exact ⟨l.neg, List.mem_map.2 ⟨l, q1, rfl⟩, (Lit.holds_neg τ l).2 q2⟩
        obtain ⟨m', q1, q2⟩ := k3 τ (fun c hc => by
          rcases List.mem_append.1 hc with hc | hc
          · exact t1 c hc
          · obtain rfl := List.mem_singleton.1 hc
            exact this) t2
        exact ⟨m', by simp [q1], q2⟩

/-- **C75**: each solution is one of the models only. -/
theorem once {s : St α} {ms : List (List Lit)} (w : Loop P s ms) {h : Hist} (x : Exec s h) (hp : Plain h) {i j : Nat} {m m' : List Lit}
    (hi : ms[i]? = some m) (hj : ms[j]? = some m') {τ : Asg} (k : allHold τ (part P m)) (k' : allHold τ (part P m')) : i = j := by
  obtain ⟨-, q, -⟩ := exact w x hp
  rw [List.pairwise_iff_getElem] at q
  obtain ⟨i1, rfl⟩ := List.getElem?_eq_some_iff.1 hi
  obtain ⟨j1, rfl⟩ := List.getElem?_eq_some_iff.1 hj
  rcases Nat.lt_trichotomy i j with c | c | c
  · obtain ⟨l, g1, g0, g2⟩ := q i j i1 j1 c
    exact absurd (k l (mem_part.2 ⟨g1, g0⟩)) ((Lit.holds_neg τ l).1 (k' _ (mem_part.2 ⟨g2, by simpa using g0⟩)))
  · exact c
  · obtain ⟨l, g1, g0, g2⟩ := q j i j1 i1 c
    exact absurd (k' l (mem_part.2 ⟨g1, g0⟩)) ((Lit.holds_neg τ l).1 (k _ (mem_part.2 ⟨g2, by simpa using g0⟩)))

/-- The assignment of the first variables, continued with `false`. -/
def extend {k : Nat} (σ : Fin k → Bool) : Asg := fun v => if h : v < k then σ ⟨v, h⟩ else false

/-- The solutions over the first `k` variables. -/
noncomputable def solutions (k : Nat) (f : List (List Lit)) (as : List Lit) : Finset (Fin k → Bool) :=
  open Classical in Finset.univ.filter fun σ => cnfSat (extend σ) f ∧ allHold (extend σ) as

theorem witness_none : ∀ (h : Hist) (m : Marks), m.witness = [] → (∀ y ∈ h, (∀ u, y.1 ≠ .witnessVar u) ∧ y.1 ≠ .observe) →
    (h.foldl Marks.after m).witness = []
  | [], _, hm, _ => hm
  | y :: h, m, hm, hp => by
    refine witness_none h _ ?_ (fun z hz => hp z (by simp [hz]))
    obtain ⟨k1, k2⟩ := hp y (by simp)
    obtain ⟨c, r⟩ := y
    cases c with
    | witnessVar u => exact absurd rfl (k1 u)
    | observe => exact absurd rfl k2
    | _ => simp [Marks.after, hm]

/-- The variables of a model are among those used. -/
theorem model_below {s : St α} {h : Hist} (x : Exec s h) (hp : Plain h) {k : Nat} (hk : ∀ y ∈ h, C54.Below k y) {m : List Lit}
    (hm : s.modelLits = some (some m)) : ∀ l ∈ m, l.var < k := by
  intro l hl
  obtain ⟨a, ra, ⟨τ, -, -, q⟩, -⟩ := C26.model_satisfies_named x hm
  obtain ⟨i, q1, -⟩ := q l hl
  have hr := PlainRun.of ra hp
  have hn := C54.next_le ra hp hk
  rw [hr.p.name] at q1
  rw [hr.p.next] at hn
  split at q1
  · omega
  · cases q1

/-- A round of the loop. -/
theorem round {s t : St α} {h : Hist} {e : Env α} {n k : Nat} (x : Exec s h) (hp : Plain h) (he : e.Ok) (hk : ∀ y ∈ h, C54.Below k y)
    (hs : s.modelLits ≠ none) (ht : s.step e (.solve n) = .ok (t, [1])) :
    ∃ m, t.modelLits = some (some m) ∧ (∀ l ∈ m, l.var < k) ∧
      (solutions k (added h ++ [exclude P m]) (assumed h)).card < (solutions k (added h) (assumed h)).card := by
  obtain ⟨m, hm, k1, k2, k3⟩ := C26.solve_true x hp hs he ht
  have x1 : Exec t (h ++ [(.solve, [1])]) := .call (op := .solve n) e x he ht
  have hb := model_below x1 (Plain.snoc hp (fun u k => by cases k) (fun k => by cases k)) (k := k) (fun y hy => by
    rcases List.mem_append.1 hy with hy | hy
    · exact hk y hy
    · obtain rfl : y = (.solve, [1]) := by simpa using hy
      trivial) hm
  refine ⟨m, hm, hb, Finset.card_lt_card ?_⟩
  obtain ⟨τ, hτ⟩ := C74.model_asg k3
  have hσ : ∀ l ∈ m, l.holds (extend fun v : Fin k => τ v.1) := by
    intro l hl
    have := hτ l hl
    unfold Lit.holds extend at *
    rw [dif_pos (hb l hl)]
    exact this
  rw [Finset.ssubset_iff_of_subset]
  · refine ⟨fun v => τ v.1, ?_, ?_⟩
    · simp only [solutions, Finset.mem_filter, Finset.mem_univ, true_and]
      refine ⟨fun c hc => ?_, fun l hl => hσ l (k2 l hl)⟩
      obtain ⟨l, q1, q2⟩ := k1 c hc
      exact ⟨l, q1, hσ l q2⟩
    · simp only [solutions, Finset.mem_filter, Finset.mem_univ, true_and]
      rintro ⟨q, -⟩
      obtain ⟨l, q1, q2⟩ := q (exclude P m) (by simp)
      obtain ⟨y, q3, rfl⟩ := List.mem_map.1 q1
      exact (Lit.holds_neg _ y).1 q2 (hσ y (mem_part.1 q3).1)
  · intro σ hm
    simp only [solutions, Finset.mem_filter, Finset.mem_univ, true_and] at hm ⊢
    exact ⟨fun c hc => hm.1 c (List.mem_append_left _ hc), hm.2⟩

/-- **C75**: the loop ends, after at most as many rounds as there are solutions over the variables used. -/
theorem ends {e : Env α} (he : e.Ok) {k : Nat} : ∀ {n : Nat} {s : St α} {h : Hist}, Exec s h → Plain h → (∀ y ∈ h, ∀ u, y.1 ≠ .witnessVar u) →
    (∀ y ∈ h, C54.Below k y) → s.modelLits ≠ none → (solutions k (added h) (assumed h)).card ≤ n → ∃ ms, Loop P s ms ∧ ms.length ≤ n := by
  intro n
  induction n with
  | zero =>
    intro s h x hp hw hk hs hc
    obtain ⟨N, t, r, k1, k2, k3⟩ := C54.decides x hp he
    rcases k2 with rfl | rfl
    · exact ⟨[], .done he (k1 N (Nat.le_refl _)), by simp⟩
    · obtain ⟨m, -, -, q⟩ := round (P := P) x hp he hk hs (k1 N (Nat.le_refl _))
      omega
  | succ n ih =>
    intro s h x hp hw hk hs hc
    obtain ⟨N, t, r, k1, k2, k3⟩ := C54.decides x hp he
    rcases k2 with rfl | rfl
    · exact ⟨[], .done he (k1 N (Nat.le_refl _)), by simp⟩
    · have ht := k1 N (Nat.le_refl _)
      obtain ⟨m, hm, hb, q⟩ := round (P := P) x hp he hk hs ht
      have x1 : Exec t (h ++ [(.solve, [1])]) := .call (op := .solve N) e x he ht
      have p1 : Plain (h ++ [(.solve, [1])]) := Plain.snoc hp (fun u k => by cases k) (fun k => by cases k)
      have w1 : (marks (h ++ [(.solve, [1])])).witness = [] := witness_none _ _ rfl (fun y hy => by
        rcases List.mem_append.1 hy with g | g
        · exact ⟨hw y g, (hp y g).2⟩
        · obtain rfl : y = (.solve, [1]) := by simpa using g
          exact ⟨fun u k => (by cases k), fun k => by cases k⟩)
      have hn : t.step e (.addClause (exclude P m)) ≠ .error .panic :=
        C53.no_panic_partial x1 he _ (by show ∀ l ∈ exclude P m, l.var ∉ (marks (h ++ [(.solve, [1])])).witness; rw [w1]; simp)
          (fun u hu => by cases hu)
      obtain ⟨a, ids, _, hi⟩ := x1.inv
      obtain ⟨u, r, hu⟩ : ∃ u r, t.step e (.addClause (exclude P m)) = .ok (u, r) := by
        rcases hi.step he (.addClause (exclude P m)) with ⟨g, _⟩ | ⟨_, n, g⟩ | ⟨s', r, _, _, g, _⟩
        · exact absurd g hn
        · cases g
        · exact ⟨s', r, g⟩
      have x2 : Exec u (h ++ [(.solve, [1])] ++ [(.addClause (exclude P m), r)]) := .call (op := .addClause _) e x1 he hu
      have hf : found (h ++ [(.solve, [1])] ++ [(.addClause (exclude P m), r)]) = false := by unfold found; simp
      have hall : ∀ {Q : Call × List Nat → Prop}, (∀ y ∈ h, Q y) → Q (.solve, [1]) → Q (.addClause (exclude P m), r) →
          ∀ y ∈ h ++ [(Call.solve, [1])] ++ [(.addClause (exclude P m), r)], Q y := by
        intro Q g1 g2 g3 y hy
        simp only [List.append_assoc, List.cons_append, List.nil_append, List.mem_append, List.mem_cons, List.not_mem_nil, or_false] at hy
        rcases hy with hy | rfl | rfl
        · exact g1 y hy
        · exact g2
        · exact g3
      obtain ⟨ms, g1, g2⟩ := ih x2 (Plain.snoc p1 (fun u k => by cases k) (fun k => by cases k))
        (hall hw (fun u k => by cases k) (fun u k => by cases k))
        (hall hk trivial (fun l hl => by
          obtain ⟨y, hy, rfl⟩ := List.mem_map.1 hl
          rw [Lit.var_neg]
          exact hb y (mem_part.1 hy).1))
        (by rw [C55.model_none x2 |>.2 hf]; simp)
        (by
          have a2 : added (h ++ [(.solve, [1])] ++ [(.addClause (exclude P m), r)]) = added h ++ [exclude P m] := by
            rw [added_snoc, added_snoc]; simp
          have s2 : assumed (h ++ [(.solve, [1])] ++ [(.addClause (exclude P m), r)]) = assumed h := by
            rw [assumed_snoc, assumed_snoc]
          rw [a2, s2]
          omega)
      exact ⟨m :: ms, .next he ht hm hu g1, by simpa using g2⟩

/-- **C75**: so it ends after at most `2 ^ k` rounds for `k` variables. -/
theorem bound {e : Env α} (he : e.Ok) {k : Nat} {s : St α} {h : Hist} (x : Exec s h) (hp : Plain h) (hw : ∀ y ∈ h, ∀ u, y.1 ≠ .witnessVar u)
    (hk : ∀ y ∈ h, C54.Below k y) (hs : s.modelLits ≠ none) : ∃ ms, Loop P s ms ∧ ms.length ≤ 2 ^ k := by
  refine ends he x hp hw hk hs ?_
  refine (Finset.card_le_univ _).trans ?_
  simp

/-- Every variable below `k` is in a clause or an assumption. -/
def Used (k : Nat) (h : Hist) : Prop := ∀ v, v < k → (∃ c ∈ added h, ∃ l ∈ c, l.var = v) ∨ ∃ l ∈ assumed h, l.var = v

/-- A model has a literal for each variable that was used. -/
theorem model_total {s : St α} {h : Hist} (x : Exec s h) (hp : Plain h) {k : Nat} (hu : Used k h) {m : List Lit}
    (hm : s.modelLits = some (some m)) : ∀ v, v < k → ∃ b, Lit.mk' v b ∈ m := by
  intro v hv
  obtain ⟨k1, k2, -⟩ := C26.model_satisfies x hp hm
  obtain ⟨a, ra, ⟨τ, q0, q1, -⟩, q, -⟩ := C26.model_satisfies_named x hm
  have hr := PlainRun.of ra hp
  have hc : a.clauses = added h := by
    rcases hr.clauses with g | ⟨g, -⟩
    · exact g
    · exact absurd q0 (g τ)
  have ho : (∃ c ∈ a.clauses, ∃ l ∈ c, l.var = v) ∨ ∃ l ∈ a.assumptions, l.var = v := by
    rw [hc, hr.assumptions]; exact hu v hv
  refine q v v ?_ ho
  rw [hr.p.name, if_pos]
  rcases ho with ⟨c, g1, l, g2, rfl⟩ | ⟨l, g1, rfl⟩
  · exact hr.lt c g1 l g2
  · exact hr.ltA l g1

theorem total {s : St α} {ms : List (List Lit)} (w : Loop P s ms) {k : Nat} : ∀ {h : Hist}, Exec s h → Plain h → Used k h → (∀ y ∈ h, C54.Below k y) →
    ∀ m ∈ ms, (∀ v, v < k → ∃ b, Lit.mk' v b ∈ m) ∧ ∀ l ∈ m, l.var < k := by
  induction w with
  | done => intro h x hp hu hk m hm; cases hm
  | @next s t u e n m r ms he hs hm ha w ih =>
    intro h x hp hu hk m' hm'
    have x1 : Exec t (h ++ [(.solve, [1])]) := .call (op := .solve n) e x he hs
    have p1 : Plain (h ++ [(.solve, [1])]) := Plain.snoc hp (fun u k => by cases k) (fun k => by cases k)
    have x2 : Exec u (h ++ [(.solve, [1])] ++ [(.addClause (exclude P m), r)]) := .call (op := .addClause _) e x1 he ha
    have a1 : added (h ++ [(.solve, [1])]) = added h := by rw [added_snoc]; simp
    have s1 : assumed (h ++ [(.solve, [1])]) = assumed h := by rw [assumed_snoc]
    have b1 : ∀ y ∈ h ++ [(Call.solve, [1])], C54.Below k y := by
      intro y hy
      rcases List.mem_append.1 hy with hy | hy
      · exact hk y hy
      · obtain rfl : y = (.solve, [1]) := by simpa using hy
        trivial
    have hb := model_below x1 p1 b1 hm
    rcases List.mem_cons.1 hm' with rfl | hm'
    · exact ⟨model_total x1 p1 (by unfold Used; rw [a1, s1]; exact hu) hm, hb⟩
    · refine ih x2 (Plain.snoc p1 (fun u k => by cases k) (fun k => by cases k)) ?_ ?_ m' hm'
      · unfold Used
        rw [added_snoc, a1, assumed_snoc, s1]
        intro v hv
        rcases hu v hv with ⟨c, g1, g2⟩ | g
        · exact .inl ⟨c, List.mem_append_left _ g1, g2⟩
        · exact .inr g
      · intro y hy
        rcases List.mem_append.1 hy with hy | hy
        · exact b1 y hy
        · obtain rfl := List.mem_singleton.1 hy
          intro l hl
          obtain ⟨z, hz, rfl⟩ := List.mem_map.1 hl
          rw [Lit.var_neg]
          exact hb z (mem_part.1 hz).1

/-- The values of the variables in `P`. -/
def restrict (P : Nat → Bool) {k : Nat} (σ : Fin k → Bool) : {v : Fin k // P v.1 = true} → Bool := fun v => σ v.1

/-- **C75**: the number of rounds is the number of values the variables in `P` have in the solutions, if no other variables were used. -/
theorem counts {s : St α} {ms : List (List Lit)} (w : Loop P s ms) {h : Hist} (x : Exec s h) (hp : Plain h) {k : Nat} (hu : Used k h)
    (hk : ∀ y ∈ h, C54.Below k y) : ms.length = ((solutions k (added h) (assumed h)).image (restrict P)).card := by
  obtain ⟨q1, q2, q3⟩ := exact w x hp
  have hm := total w x hp hu hk
  let f : Fin ms.length → Fin k → Bool := fun i v => decide (Lit.mk' v.1 true ∈ ms[i])
  have hf : ∀ (i : Fin ms.length) (l : Lit), l ∈ ms[i] → l.holds (extend (f i)) := by
    intro i l hl
    have hb := (hm _ (List.getElem_mem i.2)).2 l hl
    have hn := (q1 _ (List.getElem_mem i.2)).2.2 l hl
    unfold Lit.holds extend
    rw [dif_pos hb]
    show decide (Lit.mk' l.var true ∈ ms[i]) = _
    cases hs : l.isNeg with
    | false =>
      have : Lit.mk' l.var true = l := by have := Lit.mk'_var_neg l; rwa [hs] at this
      simpa [this] using hl
    | true =>
      have : Lit.mk' l.var true = l.neg := Lit.ext_var_neg (by simp) (by simp [hs])
      simpa [this] using hn
  have hinj : Function.Injective fun i => restrict P (f i) := by
    intro i j hij
    refine Fin.ext (once w x hp (List.getElem?_eq_getElem i.2) (List.getElem?_eq_getElem j.2) (τ := extend (f i))
      (fun l hl => hf i l (mem_part.1 hl).1) (fun l hl => ?_))
    obtain ⟨g1, g2⟩ := mem_part.1 hl
    have hb := (hm _ (List.getElem_mem j.2)).2 l g1
    have e1 := hf j l g1
    have e2 : f i ⟨l.var, hb⟩ = f j ⟨l.var, hb⟩ := congrFun hij ⟨⟨l.var, hb⟩, g2⟩
    unfold Lit.holds extend at e1 ⊢
    rw [dif_pos hb] at e1 ⊢
    rw [e2, e1]
  have himg : (solutions k (added h) (assumed h)).image (restrict P) = Finset.univ.image fun i => restrict P (f i) := by
    ext ρ
    simp only [solutions, Finset.mem_filter, Finset.mem_univ, true_and, Finset.mem_image]
    constructor
    · rintro ⟨σ, ⟨t1, t2⟩, rfl⟩
      obtain ⟨m, g1, g2⟩ := q3 _ t1 t2
      obtain ⟨i, hi, rfl⟩ := List.getElem_of_mem g1
      refine ⟨⟨i, hi⟩, ?_⟩
      funext v
      obtain ⟨b, hb⟩ := (hm _ g1).1 v.1.1 v.1.2
      have e1 := g2 _ (mem_part.2 ⟨hb, by simpa using v.2⟩)
      have e2 := hf ⟨i, hi⟩ _ hb
      unfold Lit.holds extend at e1 e2
      simp only [Lit.var_mk', v.1.2, dif_pos] at e1 e2
      show f ⟨i, hi⟩ v.1 = σ v.1
      rw [e1, e2]
    · rintro ⟨i, rfl⟩
      obtain ⟨g1, g2, -⟩ := q1 _ (List.getElem_mem i.2)
      refine ⟨f i, ⟨fun c hc => ?_, fun l hl => hf i l (g2 l hl)⟩, rfl⟩
      obtain ⟨l, g3, g4⟩ := g1 c hc
      exact ⟨l, g3, hf i l g4⟩
  rw [himg, Finset.card_image_of_injective _ hinj]
  simp

/-- **C75**: with all variables it is the number of solutions. -/
theorem counts_all {s : St α} {ms : List (List Lit)} (w : Loop (fun _ => true) s ms) {h : Hist} (x : Exec s h) (hp : Plain h) {k : Nat}
    (hu : Used k h) (hk : ∀ y ∈ h, C54.Below k y) : ms.length = (solutions k (added h) (assumed h)).card := by
  rw [counts w x hp hu hk]
  refine Finset.card_image_of_injective _ fun σ σ' k => ?_
  funext v
  exact congrFun k ⟨v, rfl⟩

/-! ### Test cases -/

open Sample

/-- The loop, with a bound on the number of rounds. -/
def enumerate (P : Nat → Bool) : Nat → St Nat → Option (List (List Lit))
  | 0, _ => none
  | n + 1, s =>
    match s.step Sample.env (.solve 40) with
    | .ok (_, [0]) => some []
    | .ok (t, [1]) =>
      match t.modelLits with
      | some (some m) =>
        match t.step Sample.env (.addClause (exclude P m)) with
        | .ok (u, _) => (enumerate P n u).map (m :: ·)
        | .error _ => none
      | _ => none
    | _ => none

theorem enumerate_loop : ∀ (n : Nat) {s : St Nat} {ms : List (List Lit)}, enumerate P n s = some ms → Loop P s ms
  | 0, _, _, k => by cases k
  | n + 1, s, ms, k => by
    unfold enumerate at k
    split at k
    · rename_i q; cases k; exact .done Sample.env_ok q
    · rename_i t q
      split at k
      · rename_i m hm
        split at k
        · rename_i u r hu
          obtain ⟨ms', k1, rfl⟩ := Option.map_eq_some_iff.1 k
          exact .next Sample.env_ok q hm hu (enumerate_loop n k1)
        · cases k
      · cases k
    · cases k

/-- A formula over three variables with four solutions, all of which are found; the first variable has two values in them. -/
example : ∃ (s : St Nat) (h : Hist) (ms ms' : List (List Lit)), Exec s h ∧ Plain h ∧ (∀ y ∈ h, ∀ u, y.1 ≠ .witnessVar u) ∧ Used 3 h ∧
    (∀ y ∈ h, C54.Below 3 y) ∧ s.modelLits ≠ none ∧ Loop (fun _ => true) s ms ∧ ms.length = 4 ∧ (solutions 3 (added h) (assumed h)).card = 4 ∧
    Loop (· == 0) s ms' ∧ ms'.length = 2 := by
  obtain ⟨s, rs, h1, h2⟩ := see_exec (f := fun s rs => (rs, s.modelLits, (enumerate (fun _ => true) 6 s).map List.length, (enumerate (· == 0) 6 s).map List.length))
    (ops := [cl [1, 2], cl [-1, 3]]) (x := ([[], []], some none, some 4, some 2)) (by decide +kernel)
  simp only [Prod.mk.injEq] at h2
  obtain ⟨rfl, h3, h4, h5⟩ := h2
  obtain ⟨ms, k1, k2⟩ := Option.map_eq_some_iff.1 h4
  obtain ⟨ms', k3, k4⟩ := Option.map_eq_some_iff.1 h5
  have hp := C74.plain_of (h := ([cl [1, 2], cl [-1, 3]].map Op.call).zip [[], []]) rfl
  have hu : Used 3 (([cl [1, 2], cl [-1, 3]].map Op.call).zip [[], []]) := by
    intro v hv
    left
    show ∃ c ∈ [[⟨0⟩, ⟨2⟩], [⟨1⟩, (⟨4⟩ : Lit)]], ∃ l ∈ c, l.var = v
    revert v
    decide
  have hb : ∀ y ∈ ([cl [1, 2], cl [-1, 3]].map Op.call).zip [([] : List Nat), []], C54.Below 3 y := by
    simp [cl, Op.call, C54.Below]
    decide
  refine ⟨s, _, ms, ms', h1, hp, ?_, hu, hb, by rw [h3]; simp, enumerate_loop 6 k1, k2, ?_, enumerate_loop 6 k3, k4⟩
  · simp [cl, Op.call]
  · rw [← counts_all (enumerate_loop 6 k1) h1 hp hu hb, k2]

end Varisat.C75
