import Verif.Props.C75_Enumeration
/-!
# C77: a minimal set of failed assumptions can be found with `assume` and `solve` alone

The usual loop: each assumption is left out in turn, and dropped for good if the formula is still unsatisfiable without it. It uses the
answers only, and so does not need the condition of C28 on failed cores.
-/
namespace Varisat.C77
open Solver Api

variable {α : Type} [LinearOrder α]

/-- The loop ends with the assumptions `core`: `kept` are those found to be needed, the others are still to be tried. Each call may have
its own parameters. -/
inductive Loop : St α → List Lit → List Lit → List Lit → Prop
  | done {s : St α} {kept : List Lit} : Loop s kept [] kept
  | needed {s t u : St α} {e : Env α} {n : Nat} {l : Lit} {kept todo core : List Lit} {r : List Nat} : e.Ok →
    s.step e (.assume (kept ++ todo)) = .ok (t, r) → t.step e (.solve n) = .ok (u, [1]) → Loop u (kept ++ [l]) todo core → Loop s kept (l :: todo) core
  | dropped {s t u : St α} {e : Env α} {n : Nat} {l : Lit} {kept todo core : List Lit} {r : List Nat} : e.Ok →
    s.step e (.assume (kept ++ todo)) = .ok (t, r) → t.step e (.solve n) = .ok (u, [0]) → Loop u kept todo core → Loop s kept (l :: todo) core

/-- The literals cannot all hold in a solution. -/
def Clash (f : List (List Lit)) (as : List Lit) : Prop := ∀ τ, cnfSat τ f → ¬ allHold τ as

/-- What one round of calls tells, and what it leaves unchanged. -/
theorem round {s t u : St α} {h : Hist} {e : Env α} {n : Nat} {as : List Lit} {r r' : List Nat} (x : Exec s h) (hp : Plain h) (he : e.Ok)
    (ha : s.step e (.assume as) = .ok (t, r)) (hs : t.step e (.solve n) = .ok (u, r')) :
    ∃ h', Exec u h' ∧ Plain h' ∧ added h' = added h ∧
      ((r' = [1] ∧ ∃ τ, cnfSat τ (added h) ∧ allHold τ as) ∨ (r' = [0] ∧ Clash (added h) as)) := by
  have x1 : Exec t (h ++ [(.assume as, r)]) := .call (op := .assume as) e x he ha
  have p1 : Plain (h ++ [(.assume as, r)]) := C75.Plain.snoc hp (fun u k => by cases k) (fun k => by cases k)
  have x2 : Exec u (h ++ [(.assume as, r)] ++ (.solve, r') :: []) := .call (op := .solve n) e x1 he hs
  have a1 : added (h ++ [(.assume as, r)]) = added h := by rw [added_snoc]; simp
  have s1 : assumed (h ++ [(.assume as, r)]) = as := by rw [assumed_snoc]
  refine ⟨_, x2, C75.Plain.snoc p1 (fun u k => by cases k) (fun k => by cases k), by rw [added_snoc, a1]; simp, ?_⟩
  have k := C45.every_answer x2 p1
  rw [a1, s1] at k
  exact k

/-- The invariant of the loop. -/
theorem found {s : St α} {kept todo core : List Lit} (w : Loop s kept todo core) : ∀ {h : Hist}, Exec s h → Plain h →
    Clash (added h) (kept ++ todo) → (∀ l ∈ kept, ∃ τ, cnfSat τ (added h) ∧ ∀ y ∈ kept ++ todo, y ≠ l → y.holds τ) →
    (∀ l ∈ core, l ∈ kept ++ todo) ∧ Clash (added h) core ∧ ∀ l ∈ core, ∃ τ, cnfSat τ (added h) ∧ ∀ y ∈ core, y ≠ l → y.holds τ := by
  induction w with
  | done =>
    intro h x hp k1 k2
    rw [List.append_nil] at k1 k2 ⊢
    exact ⟨fun l hl => hl, k1, k2⟩
  | @needed s t u e n l kept todo core r he ha hs w ih =>
    intro h x hp k1 k2
    obtain ⟨h', x', hp', hc, k⟩ := round x hp he ha hs
    have hm : ∀ y, y ∈ kept ++ [l] ++ todo ↔ y ∈ kept ++ l :: todo := fun y => by simp
    obtain ⟨τ, t1, t2⟩ : ∃ τ, cnfSat τ (added h) ∧ allHold τ (kept ++ todo) := by
      rcases k with ⟨-, k⟩ | ⟨k, -⟩
      · exact k
      · cases k
    have q := ih x' hp' (by
      rw [hc]
      exact fun σ g1 g2 => k1 σ g1 fun y hy => g2 y ((hm y).2 hy)) (by
      rw [hc]
      intro y hy
      rcases List.mem_append.1 hy with hy | hy
      · obtain ⟨σ, g1, g2⟩ := k2 y hy
        exact ⟨σ, g1, fun z hz => g2 z ((hm z).1 hz)⟩
      · obtain rfl : y = l := by simpa using hy
        refine ⟨τ, t1, fun z hz hn => t2 z ?_⟩
        have := (hm z).1 hz
        simp only [List.mem_append, List.mem_cons, hn, false_or] at this
        exact List.mem_append.2 this)
    rw [hc] at q
    exact ⟨fun y hy => (hm y).1 (q.1 y hy), q.2⟩
  | @dropped s t u e n l kept todo core r he ha hs w ih =>
    intro h x hp k1 k2
    obtain ⟨h', x', hp', hc, k⟩ := round x hp he ha hs
    have hm : ∀ y, y ∈ kept ++ todo → y ∈ kept ++ l :: todo := fun y hy => by
      rcases List.mem_append.1 hy with g | g <;> simp [g]
    have q := ih x' hp' (by
      rw [hc]
      rcases k with ⟨k, -⟩ | ⟨-, k⟩
      · cases k
      · exact k) (by
      rw [hc]
      intro y hy
      obtain ⟨σ, g1, g2⟩ := k2 y hy
      exact ⟨σ, g1, fun z hz => g2 z (hm z hz)⟩)
    rw [hc] at q
    exact ⟨fun y hy => hm y (q.1 y hy), q.2⟩

variable {s : St α} {h h' : Hist} {as core : List Lit}

/-- **C77**: the assumptions that are left are among those at the start, cannot all hold, and each of them is needed. -/
theorem minimal (w : Loop s [] as core) (x : Exec s h) (hp : Plain h) (k : Clash (added h) as) :
    (∀ l ∈ core, l ∈ as) ∧ Clash (added h) core ∧ ∀ l ∈ core, ∃ τ, cnfSat τ (added h) ∧ ∀ y ∈ core, y ≠ l → y.holds τ :=
  found w x hp k (fun l hl => by cases hl)

/-- **C77**: any solver with the same clauses says unsatisfiable with the assumptions that are left, and satisfiable with only some of
them. -/
theorem confirmed {b' : Bool} (w : Loop s [] as core) (x : Exec s h) (hp : Plain h) (k : Clash (added h) as) (x' : C74.Says h' b') (hp' : Plain h')
    (hc : added h' = added h) (ha : ∀ l ∈ assumed h', l ∈ core) : b' = false ↔ ∀ l ∈ core, l ∈ assumed h' := by
  obtain ⟨-, k2, k3⟩ := minimal w x hp k
  have t := x'.truth hp'
  unfold C74.Sat at t
  rw [hc] at t
  constructor
  · rintro rfl l hl
    by_contra hn
    obtain ⟨τ, q1, q2⟩ := k3 l hl
    have := t.2 ⟨τ, q1, fun y hy => q2 y (ha y hy) (fun g => hn (g ▸ hy))⟩
    cases this
  · intro hl
    cases b' with
    | false => rfl
    | true =>
      obtain ⟨τ, q1, q2⟩ := t.1 rfl
      exact absurd (fun l g => q2 l (hl l g)) (k2 τ q1)

/-- **C77**: the set that is left is empty exactly if the formula is unsatisfiable without assumptions. -/
theorem empty (w : Loop s [] as core) (x : Exec s h) (hp : Plain h) (k : Clash (added h) as) : core = [] ↔ ∀ τ, ¬ cnfSat τ (added h) := by
  obtain ⟨-, k2, k3⟩ := minimal w x hp k
  constructor
  · rintro rfl τ q
    exact k2 τ q fun l hl => by cases hl
  · intro q
    cases core with
    | nil => rfl
    | cons l ls =>
      obtain ⟨τ, g, -⟩ := k3 l List.mem_cons_self
      exact absurd g (q τ)

/-- **C77**: after `solve` returned false, the assumptions can be reduced. -/
theorem after_solve {t : St α} {e : Env α} {n : Nat} (x : Exec s h) (hp : Plain h) (he : e.Ok) (hs : s.step e (.solve n) = .ok (t, [0]))
    (w : Loop t [] (assumed h) core) :
    (∀ l ∈ core, l ∈ assumed h) ∧ Clash (added h) core ∧ ∀ l ∈ core, ∃ τ, cnfSat τ (added h) ∧ ∀ y ∈ core, y ≠ l → y.holds τ := by
  have x1 : Exec t (h ++ (.solve, [0]) :: []) := .call (op := .solve n) e x he hs
  have a1 : added (h ++ [(.solve, [0])]) = added h := by rw [added_snoc]; simp
  have k : Clash (added h) (assumed h) := by
    rcases C45.every_answer x1 hp with ⟨k, -⟩ | ⟨-, k⟩
    · cases k
    · exact k
  have q := minimal w x1 (C75.Plain.snoc hp (fun u k => by cases k) (fun k => by cases k)) (by rw [a1]; exact k)
  rwa [a1] at q

/-- **C77**: the loop ends: no call in it panics or goes on forever. -/
theorem ends {e : Env α} (he : e.Ok) : ∀ (todo kept : List Lit) {s : St α} {h : Hist}, Exec s h → Plain h →
    (∀ y ∈ h, ∀ u, y.1 ≠ .witnessVar u) → ∃ core, Loop s kept todo core
  | [], kept, s, h, _, _, _ => ⟨kept, .done⟩
  | l :: todo, kept, s, h, x, hp, hw => by
    have w1 : (marks h).witness = [] := C75.witness_none _ _ rfl (fun y hy => ⟨hw y hy, (hp y hy).2⟩)
    have hn : s.step e (.assume (kept ++ todo)) ≠ .error .panic :=
      C53.no_panic_partial x he _ (by show ∀ l ∈ kept ++ todo, l.var ∉ (marks h).witness; rw [w1]; simp) (fun u hu => by cases hu)
    obtain ⟨a, ids, _, hi⟩ := x.inv
    obtain ⟨t, r, ht⟩ : ∃ t r, s.step e (.assume (kept ++ todo)) = .ok (t, r) := by
      rcases hi.step he (.assume (kept ++ todo)) with ⟨g, _⟩ | ⟨_, n, g⟩ | ⟨s', r, _, _, g, _⟩
      · exact absurd g hn
      · cases g
      · exact ⟨s', r, g⟩
    have x1 : Exec t (h ++ [(.assume (kept ++ todo), r)]) := .call (op := .assume _) e x he ht
    have p1 : Plain (h ++ [(.assume (kept ++ todo), r)]) := C75.Plain.snoc hp (fun u k => by cases k) (fun k => by cases k)
    obtain ⟨N, u, r', k1, k2, -⟩ := C54.decides x1 p1 he
    have hu := k1 N (Nat.le_refl _)
    have x2 : Exec u (h ++ [(.assume (kept ++ todo), r)] ++ [(.solve, r')]) := .call (op := .solve N) e x1 he hu
    have p2 := C75.Plain.snoc p1 (y := (.solve, r')) (fun u k => by cases k) (fun k => by cases k)
    have w2 : ∀ y ∈ h ++ [(Call.assume (kept ++ todo), r)] ++ [(.solve, r')], ∀ u, y.1 ≠ .witnessVar u := by
      intro y hy
      simp only [List.append_assoc, List.cons_append, List.nil_append, List.mem_append, List.mem_cons, List.not_mem_nil, or_false] at hy
      rcases hy with hy | rfl | rfl
      · exact hw y hy
      · intro u k; cases k
      · intro u k; cases k
    rcases k2 with rfl | rfl
    · obtain ⟨core, g⟩ := ends he todo kept x2 p2 w2
      exact ⟨core, .dropped he ht hu g⟩
    · obtain ⟨core, g⟩ := ends he todo (kept ++ [l]) x2 p2 w2
      exact ⟨core, .needed he ht hu g⟩

/-! ### Test cases -/

open Sample

/-- The loop as a function. -/
def shrink : List Lit → List Lit → St Nat → Option (List Lit)
  | kept, [], _ => some kept
  | kept, l :: todo, s =>
    match s.step Sample.env (.assume (kept ++ todo)) with
    | .ok (t, _) =>
      match t.step Sample.env (.solve 40) with
      | .ok (u, [0]) => shrink kept todo u
      | .ok (u, [1]) => shrink (kept ++ [l]) todo u
      | _ => none
    | .error _ => none

theorem shrink_loop : ∀ (todo kept : List Lit) {s : St Nat} {core : List Lit}, shrink kept todo s = some core → Loop s kept todo core
  | [], kept, s, core, k => by
    unfold shrink at k
    cases k
    exact .done
  | l :: todo, kept, s, core, k => by
    unfold shrink at k
    split at k
    · rename_i t r ht
      split at k
      · rename_i u hu; exact .dropped Sample.env_ok ht hu (shrink_loop todo kept k)
      · rename_i u hu; exact .needed Sample.env_ok ht hu (shrink_loop todo (kept ++ [l]) k)
      · cases k
    · cases k

/-- Five assumptions after a failed `solve`, one of them given twice: two are left. -/
example : ∃ (s t : St Nat) (h : Hist), Exec s h ∧ Plain h ∧ (∀ y ∈ h, ∀ u, y.1 ≠ .witnessVar u) ∧ s.step Sample.env (.solve 40) = .ok (t, [0]) ∧
    Loop t [] (assumed h) [⟨5⟩, ⟨0⟩] ∧ assumed h = [⟨0⟩, ⟨5⟩, ⟨6⟩, ⟨0⟩, ⟨8⟩] ∧ ∃ τ, cnfSat τ (added h) := by
  obtain ⟨s, rs, h1, h2⟩ := see_exec (f := fun s rs => (rs, match s.step Sample.env (.solve 40) with
      | .ok (t, [0]) => shrink [] [⟨0⟩, ⟨5⟩, ⟨6⟩, ⟨0⟩, ⟨8⟩] t
      | _ => none))
    (ops := [cl [-1, 2], cl [-2, 3], asm [1, -3, 4, 1, 5]]) (x := ([[], [], []], some [⟨5⟩, ⟨0⟩])) (by decide +kernel)
  simp only [Prod.mk.injEq] at h2
  obtain ⟨rfl, h3⟩ := h2
  split at h3
  · rename_i t ht
    refine ⟨s, t, _, h1, C74.plain_of rfl, by simp [cl, asm, Op.call], ht, shrink_loop _ _ h3, rfl, fun _ => true, ?_⟩
    show cnfSat (fun _ => true) [[⟨1⟩, ⟨2⟩], [⟨3⟩, (⟨4⟩ : Lit)]]
    simp [cnfSat, clauseSat, Lit.holds, Lit.isNeg]
  · cases h3

end Varisat.C77
