import Verif.Props.C37_VarMaps
import Mathlib.Data.List.Induction
/-!
# C66: new variables were not used before

`new_var` never returns a variable that an earlier call has used or returned, unless the variable was hidden in between.

The exception: clauses added to a formula that is already unsatisfiable are ignored with their variables, and `new_var` may return a variable
of such a clause (`C66.reused`).
-/
namespace Varisat.C66
open Solver Api

variable {α : Type} [LinearOrder α]

/-- A variable that occurs in a call or its result. -/
def Uses (x : Call × List Nat) (u : Nat) : Prop :=
  match x.1 with
  | .addClause c => ∃ l ∈ c, l.var = u
  | .assume ls => ∃ l ∈ ls, l.var = u
  | .witnessVar v => v = u
  | .sampleVar v => v = u
  | .newVar => u ∈ x.2
  | .observe => u ∈ x.2
  | .hideVar _ => False
  | .solve => False

/-- The formula before a call is satisfiable. -/
def Open (h : Hist) : Prop := ∀ a, Abs.Run {} h a → ¬ Unsat a.clauses

theorem create_name (a : Abs) (u : Nat) : ∃ i, (a.create u).name u = some i := by
  unfold Abs.create
  by_cases k : a.name u = none
  · rw [if_pos k]; exact ⟨a.next, by simp⟩
  · rw [if_neg k]
    cases q : a.name u with
    | none => exact absurd q k
    | some i => exact ⟨i, rfl⟩

theorem ensure_name (a : Abs) (u : Nat) : ∃ i, (a.ensure u).name u = some i := create_name _ u

theorem ensureLits_keep {u i : Nat} : ∀ (ls : List Lit) (a : Abs), a.name u = some i → (a.ensureLits ls).name u = some i :=
  fun ls a h => C37.name_stable (.assume a ls) h (by simp)

theorem ensureLits_name {u : Nat} : ∀ (ls : List Lit) (a : Abs), (∃ l ∈ ls, l.var = u) → ∃ i, (a.ensureLits ls).name u = some i
  | [], a, h => by obtain ⟨l, hl, -⟩ := h; cases hl
  | m :: ls, a, h => by
    obtain ⟨l, hl, hu⟩ := h
    rcases List.mem_cons.1 hl with rfl | hl
    · obtain ⟨i, hi⟩ := ensure_name a l.var
      rw [hu] at hi
      exact ⟨i, by rw [← hu] at hi ⊢; exact ensureLits_keep ls (a.ensure l.var) hi⟩
    · exact ensureLits_name ls (a.ensure m.var) ⟨l, hl, hu⟩

/-- A variable that is used has a name afterwards. -/
theorem named {a b : Abs} {x : Call × List Nat} {u : Nat} (st : Abs.Step a x.1 x.2 b) (hu : Uses x u)
    (hn : (∃ c, x.1 = .addClause c) → ¬ Unsat a.clauses) : ∃ i, b.name u = some i := by
  obtain ⟨c, r⟩ := x
  cases st with
  | addClause c => exact ensureLits_name c a hu
  | ignored c h => exact absurd h (hn ⟨c, rfl⟩)
  | newVar v h1 h2 =>
    obtain rfl : u = v := by simpa [Uses] using hu
    exact create_name a u
  | assume ls => exact ensureLits_name ls a hu
  | sat => exact hu.elim
  | unsat => exact hu.elim
  | witnessVar v => obtain rfl : v = u := hu; exact ensure_name a v
  | sampleVar v => obtain rfl : v = u := hu; exact ensure_name a v
  | hideVar v => exact hu.elim
  | observe _ _ _ _ h _ _ _ _ _ _ =>
    obtain ⟨i, hi, -⟩ := h u hu
    exact ⟨i, hi⟩

theorem run_nil {a c : Abs} (r : Abs.Run a [] c) : c = a := by
  generalize hk : ([] : Hist) = k at r
  cases r with
  | nil => rfl
  | snoc => simp at hk

theorem run_split {a c : Abs} {h1 : Hist} : ∀ {h2 : Hist}, Abs.Run a (h1 ++ h2) c → ∃ b, Abs.Run a h1 b ∧ Abs.Run b h2 c := by
  intro h2
  induction h2 using List.reverseRecOn generalizing c with
  | nil => intro r; rw [List.append_nil] at r; exact ⟨c, r, .nil c⟩
  | append_singleton h2 y ih =>
    intro r
    rw [← List.append_assoc] at r
    obtain ⟨d, r1, r2⟩ := run_snoc r
    obtain ⟨b, k1, k2⟩ := ih r1
    exact ⟨b, k1, .snoc k2 r2⟩

theorem run_stable {a c : Abs} {h : Hist} {u i : Nat} (r : Abs.Run a h c) (hu : a.name u = some i) (hh : ∀ y ∈ h, y.1 ≠ .hideVar u) :
    c.name u = some i := by
  revert hu hh
  induction r with
  | nil => exact fun hu _ => hu
  | snoc r st ih => exact fun hu hh => C37.name_stable st (ih hu fun y hy => hh y (List.mem_append_left _ hy)) (hh _ (List.mem_append_right _ (List.mem_singleton.2 rfl)))

/-- **C66**: after a call that uses `u`, and as long as `u` is not hidden, `new_var` does not return `u`. -/
theorem fresh_partial {s : St α} {h1 h2 h3 : Hist} {x : Call × List Nat} {u v : Nat}
    (ex : Exec s (h1 ++ x :: (h2 ++ (.newVar, [v]) :: h3))) (hu : Uses x u) (hh : ∀ y ∈ h2, y.1 ≠ .hideVar u)
    (hn : (∃ c, x.1 = .addClause c) → Open h1) : v ≠ u := by
  obtain ⟨a, ids, r, -⟩ := ex.inv
  obtain ⟨a1, r1, r2⟩ := run_split r
  rw [show x :: (h2 ++ (Call.newVar, [v]) :: h3) = [x] ++ (h2 ++ ((Call.newVar, [v]) :: h3)) from rfl] at r2
  obtain ⟨a2, r3, r4⟩ := run_split r2
  obtain ⟨a3, r5, r6⟩ := run_split r4
  rw [show (Call.newVar, [v]) :: h3 = [(Call.newVar, [v])] ++ h3 from rfl] at r6
  obtain ⟨a4, r7, -⟩ := run_split r6
  have s1 : Abs.Step a1 x.1 x.2 a2 := by
    obtain ⟨b, k1, k2⟩ := run_snoc (h := []) (o := x.1) (r := x.2) r3
    rw [run_nil k1] at k2
    exact k2
  obtain ⟨i, hi⟩ := named s1 hu fun hc => hn hc a1 r1
  have hi := run_stable r5 hi hh
  rintro rfl
  obtain ⟨b, k1, k2⟩ := run_snoc (h := []) r7
  rw [run_nil k1] at k2
  cases k2 with
  | newVar _ h _ => rw [h] at hi; cases hi

/-- Without hidden variables it is enough that the clauses added so far are satisfiable. -/
theorem open_of_plain {h : Hist} (hp : Plain h) {τ : Asg} (hs : cnfSat τ (added h)) : Open h :=
  fun _ r hu => hu τ (((PlainRun.of r hp).iff τ).2 hs)

/-! ### Concrete cases -/

open Sample

/-- The hypotheses of `fresh_partial`: variables used in a clause, hidden, assumed and returned. -/
example : ∃ s : St Nat, Exec s [(.addClause [⟨0⟩, ⟨2⟩], []), (.hideVar 0, []), (.newVar, [0]), (.assume [⟨5⟩], []), (.newVar, [3])] ∧
    Open [] := by
  obtain ⟨s, rs, h1, h2⟩ := see_exec (f := fun _ rs => rs) (ops := [cl [1, 2], .hideVar 0, .newVar, asm [-3], .newVar])
    (x := [[], [], [0], [], [3]]) (by decide +kernel)
  subst h2
  refine ⟨s, h1, fun a r hu => ?_⟩
  rw [run_nil r] at hu
  exact hu (fun _ => true) (fun c hc => by cases hc)

/-- The exception: `add_clause [x₁]` after the empty clause does not create `x₁`, which is returned by `new_var`. -/
theorem reused : ∃ s : St Nat, Exec s [(.addClause [], []), (.addClause [⟨0⟩], []), (.newVar, [0])] ∧ Uses (.addClause [⟨0⟩], []) 0 := by
  obtain ⟨s, rs, h1, h2⟩ := see_exec (f := fun _ rs => rs) (ops := [cl [], cl [1], .newVar])
    (x := [[], [], [0]]) (by decide +kernel)
  subst h2
  exact ⟨s, h1, ⟨0⟩, by simp, rfl⟩

end Varisat.C66
