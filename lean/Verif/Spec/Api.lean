import Verif.Spec.Sat
import Verif.Model.Lit
/-!
# Specification of the public interface of the solver

What a caller of `Solver` sees: the clauses added, the current assumptions and which variable of the
formula each user variable stands for. A user variable stands for the variable it was created with
until it is hidden; used again afterwards it stands for a new one.
-/
namespace Varisat.Api

/-- The calls that change the state. -/
inductive Call
  | addClause (lits : List Lit) | newVar | assume (lits : List Lit) | solve
  | witnessVar (user : Nat) | sampleVar (user : Nat) | hideVar (user : Nat) | observe

/-- The state seen by the caller. -/
structure Abs where
  /-- the clauses added so far -/
  clauses : List (List Lit) := []
  /-- the current assumptions -/
  assumptions : List Lit := []
  /-- the variable of the formula that a user variable stands for -/
  name : Nat → Option Nat := fun _ => none
  /-- all user variables so far are below this number -/
  len : Nat := 0
  /-- all variables of the formula are below this number -/
  next : Nat := 0

namespace Abs

/-- Using a user variable: a new one stands for a new variable of the formula. -/
def create (a : Abs) (u : Nat) : Abs :=
  if a.name u = none then
    { a with
      name := fun v => if v = u then some a.next else a.name v
      next := a.next + 1
      len := max a.len (u + 1) }
  else a

/-- Using a user variable also creates all smaller ones never used before. -/
def ensure (a : Abs) (u : Nat) : Abs :=
  (List.range' a.len (u - a.len)).foldl create a |>.create u

/-- Using the variables of some literals. -/
def ensureLits (a : Abs) (ls : List Lit) : Abs := ls.foldl (fun a l => a.ensure l.var) a

/-- A literal of the formula. -/
def lit (a : Abs) (l : Lit) : Lit := Lit.mk' ((a.name l.var).getD 0) (!l.isNeg)

/-- One call and its result. -/
inductive Step : Abs → Call → List Nat → Abs → Prop
  | addClause (a : Abs) (c : List Lit) :
    Step a (.addClause c) []
      { a.ensureLits c with clauses := a.clauses ++ [c.map (a.ensureLits c).lit] }
  /-- a clause added to an unsatisfiable formula is ignored; its variables are not created -/
  | ignored (a : Abs) (c : List Lit) : Unsat a.clauses → Step a (.addClause c) [] a
  | newVar (a : Abs) (u : Nat) : a.name u = none → u ≤ a.len → Step a .newVar [u] (a.create u)
  | assume (a : Abs) (ls : List Lit) :
    Step a (.assume ls) [] { a.ensureLits ls with assumptions := ls.map (a.ensureLits ls).lit }
  | sat (a : Abs) : (∃ τ, cnfSat τ a.clauses ∧ allHold τ a.assumptions) → Step a .solve [1] a
  | unsat (a : Abs) : UnsatUnder a.clauses a.assumptions → Step a .solve [0] a
  | witnessVar (a : Abs) (u : Nat) : Step a (.witnessVar u) [] (a.ensure u)
  | sampleVar (a : Abs) (u : Nat) : Step a (.sampleVar u) [] (a.ensure u)
  | hideVar (a : Abs) (u : Nat) :
    Step a (.hideVar u) []
      { a.ensure u with name := fun v => if v = u then none else (a.ensure u).name v }
  /-- the user variables returned are new and stand for different variables that had no name -/
  | observe (a : Abs) (b : Abs) (us : List Nat) :
    us.Nodup → (∀ u ∈ us, a.name u = none) → (∀ u ∈ us, ∃ i, b.name u = some i ∧ i < a.next) →
    (∀ u, u ∉ us → b.name u = a.name u) →
    (∀ u v i, b.name u = some i → b.name v = some i → u = v) →
    b.clauses = a.clauses → b.assumptions = a.assumptions → b.next = a.next → a.len ≤ b.len →
    Step a .observe us b

/-- A sequence of calls with their results. -/
inductive Run : Abs → List (Call × List Nat) → Abs → Prop
  | nil (a : Abs) : Run a [] a
  | snoc {a b c : Abs} {hs : List (Call × List Nat)} {o : Call} {r : List Nat} :
    Run a hs b → Step b o r c → Run a (hs ++ [(o, r)]) c

end Abs
end Varisat.Api

namespace Varisat.Api

/-- Calls with their results, in order. -/
abbrev Hist := List (Call × List Nat)

/-- The clauses added so far, in user literals. -/
def added (h : Hist) : List (List Lit) :=
  h.filterMap fun x => match x.1 with
    | .addClause c => some c
    | _ => none

/-- The assumptions set last, in user literals. -/
def assumed (h : Hist) : List Lit :=
  h.foldl (fun a x => match x.1 with
    | .assume ls => ls
    | _ => a) []

/-- No variable was hidden or observed, so every user variable always stands for the same thing. -/
def Plain (h : Hist) : Prop := ∀ x ∈ h, (∀ u, x.1 ≠ .hideVar u) ∧ x.1 ≠ .observe

end Varisat.Api
