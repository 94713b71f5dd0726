import Verif.Proof.VsidsQueue
import Mathlib.Order.Nat
/-!
# C35: the decision heap is a priority queue

* `C35.queue`: for every sequence of calls that does not panic, the results are those of a set of
  available variables: `next` always returns a variable that is available, it returns nothing only
  when none is, and the variable it returned is not available afterwards. So no variable is lost or
  returned twice. The activities are those of the specification.
* `C35.no_panic`: allowed calls never panic.
* `C35.maximal_partial`: `next` returns a most active available variable, for all sequences in which
  `make_unavailable` is only called for variables that are unavailable or most active.
* `C35.maximal_fails`: without the restriction the claim is false. `make_unavailable` moves the last
  variable of the heap into the hole and only sifts it down; it can be more active than its new
  parent, and a later `next` returns a less active variable first.
-/
namespace Varisat
namespace C35
open Vsids Queue

variable {α : Type} [LinearOrder α]

/-- **C35** (no variable lost or duplicated). The results of any sequence of calls are those of a
set of available variables. -/
theorem queue {ar : Arith α} {pos : α → Prop} (ok : ArithOk ar pos) {ops : List Op}
    {rs : List (Option Nat)} {s : Vsids α} (h : (Vsids.new ar).runs ar ops = some (rs, s)) :
    All ar Result (Queue.empty ar) ops rs :=
  (runs_ok ok ops _ rs s (wf_init ar).1 ok.one h).2.2.2.1

/-- **C35** (activities). Afterwards a variable is available, and has the activity, that the
specification says. -/
theorem state {ar : Arith α} {pos : α → Prop} (ok : ArithOk ar pos) {ops : List Op}
    {rs : List (Option Nat)} {s : Vsids α} (h : (Vsids.new ar).runs ar ops = some (rs, s)) (v : Nat) :
    (s.position v).isSome = ((Queue.empty ar).after ar ops rs).avail v ∧
    s.activity v = ((Queue.empty ar).after ar ops rs).activity v := by
  have := (runs_ok ok ops _ rs s (wf_init ar).1 ok.one h).2.2.1
  exact ⟨congrFun (congrArg Queue.avail this) v, congrFun (congrArg Queue.activity this) v⟩

/-- **C35** (no panic). After any sequence of calls an allowed call succeeds. -/
theorem no_panic {ar : Arith α} {pos : α → Prop} (ok : ArithOk ar pos) {ops : List Op}
    {rs : List (Option Nat)} {s : Vsids α} (h : (Vsids.new ar).runs ar ops = some (rs, s))
    {o : Op} (ha : Allowed ((Queue.empty ar).after ar ops rs) o) : (s.op ar o).isSome = true := by
  have := (runs_ok ok ops _ rs s (wf_init ar).1 ok.one h).2.2.1
  rw [show (Queue.empty ar) = toQueue (Vsids.new ar) from rfl, ← this] at ha
  clear this h ok
  unfold op
  cases o <;> simp_all [Op.var?, Allowed, toQueue, reset]

/-- **C35** (maximality). `next` returns a most active available variable, as long as every variable
removed by `make_unavailable` was unavailable or most active. What is missing: sequences with other
uses of `make_unavailable`, for which the claim is false, see `maximal_fails`. -/
theorem maximal_partial {ar : Arith α} {pos : α → Prop} (ok : ArithOk ar pos) {ops : List Op}
    {rs : List (Option Nat)} {s : Vsids α} (h : (Vsids.new ar).runs ar ops = some (rs, s))
    (ht : All ar (fun q o _ => q.Tame o) (Queue.empty ar) ops rs) :
    All ar Best (Queue.empty ar) ops rs :=
  (runs_ok ok ops _ rs s (wf_init ar).1 ok.one h).2.2.2.2 (wf_init ar).2 ht

/-- Natural numbers, without decay. -/
def natArith : Arith Nat :=
  { zero := 0, one := 1, add := (· + ·), grow := (2 * ·), shrink := (· / 4), big := (· ≥ 64) }

theorem natArith_ok : ArithOk natArith (fun _ => True) where
  one := trivial
  grow := fun _ _ => trivial
  shrink := fun _ _ => trivial
  add := fun x b _ => Nat.le_add_right x b
  mono := fun _ _ h => Nat.div_le_div_right h

/-- Seven variables, of which 4 is bumped three times and 5 and 6 once; 3 is removed. -/
def witness : List Op :=
  [.setVarCount 7, .bump 4, .bump 4, .bump 4, .bump 5, .bump 6] ++
  (List.range 7).map .makeAvailable ++ [.makeUnavailable 3, .next, .next]

/-- **C35** is false in general: after `witness`, `next` returns variable 1 with activity 0 while
variable 6 with activity 1 is available. -/
theorem maximal_fails :
    ∃ rs s, (Vsids.new natArith).runs natArith witness = some (rs, s) ∧
      s.next.1 = some 1 ∧ s.activity 1 = 0 ∧ (s.position 6).isSome = true ∧ s.activity 6 = 1 := by
  have h : ((Vsids.new natArith).runs natArith witness).map (fun x =>
      (x.2.next.1, x.2.activity 1, (x.2.position 6).isSome, x.2.activity 6)) =
      some (some 1, 0, true, 1) := by decide +kernel
  rw [Option.map_eq_some_iff] at h
  obtain ⟨⟨rs, s⟩, h1, h2⟩ := h
  simp only [Prod.mk.injEq] at h2
  exact ⟨rs, s, h1, h2.1, h2.2.1, h2.2.2.1, h2.2.2.2⟩

/-- A run meeting the hypotheses of `queue`, `state` and `maximal_partial`: three variables, of
which one is bumped, removed and put back. -/
example : ∃ s, (Vsids.new natArith).runs natArith [.setVarCount 3, .makeAvailable 0,
    .makeAvailable 1, .makeAvailable 2, .bump 2, .makeUnavailable 2, .next, .makeAvailable 2, .decay,
    .next, .next, .next] =
    some ([none, none, none, none, none, none, some 0, none, none, some 2, some 1, none], s) := by
  have h : ((Vsids.new natArith).runs natArith [.setVarCount 3, .makeAvailable 0,
    .makeAvailable 1, .makeAvailable 2, .bump 2, .makeUnavailable 2, .next, .makeAvailable 2, .decay,
    .next, .next, .next]).map Prod.fst =
    some [none, none, none, none, none, none, some 0, none, none, some 2, some 1, none] := by
    decide +kernel
  rw [Option.map_eq_some_iff] at h
  obtain ⟨⟨rs, s⟩, h1, h2⟩ := h
  exact ⟨s, by rw [h1]; simp only at h2; rw [h2]⟩

end C35
end Varisat
