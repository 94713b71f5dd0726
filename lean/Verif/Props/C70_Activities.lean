import Verif.Proof.Activity
import Verif.Proof.Config
import Verif.Props.C35_Vsids
/-!
# C70: the numbers of the heuristics stay in range

* `C70.heap`, `C70.clauses`: after any sequence of calls, with any changes of the decay factor that the code accepts, all activities are
  finite numbers of at most `f32::MAX / 16`, and the bump value is between `2 ^ -26` and that limit. Infinity and NaN are absorbing in the
  model, so they do not occur in between either.
* `C70.order`: a call never turns round the order of two activities that it does not set, in spite of rescaling with rounding.
* `C70.config`: the decay factors that the configuration accepts are accepted by `set_decay`.
* `C70.queue`, `C70.maximal_partial`: `C35` for this arithmetic.
* `C70.nearest`: the rounding of the specification is to a nearest number.
-/
namespace Varisat.C70
open Flt Activity Vsids

/-- **C70** for the decision heuristic. Values are in units of `2 ^ -149`; the limit is `f32::MAX / 16`. -/
theorem heap {cs : List Call} {rs : List (Option Nat)} {h : Heap} (hc : Heap.new.calls cs = some (rs, h)) :
    (∀ v, Finite (h.vsids.activity v) ∧ 16 * value (h.vsids.activity v) ≤ value 0x7F7FFFFF) ∧
    2 ^ 123 ≤ value h.vsids.bump ∧ 16 * value h.vsids.bump ≤ value 0x7F7FFFFF := by
  have k := Heap.ok_new.calls hc
  have hl : 16 * value limit = value 0x7F7FFFFF := by decide
  refine ⟨fun v => ⟨limit_finite (le_of_lt (k.fine.act v)), ?_⟩, ?_, ?_⟩
  · have := value_le (show (h.vsids.activity v).val ≤ limit.val from le_of_lt (k.fine.act v))
    omega
  · exact Nat.le_trans (by decide) (value_le (show least.val ≤ _ from k.fine.bump.1))
  · have := value_le (show h.vsids.bump.val ≤ limit.val from le_of_lt k.fine.bump.2)
    omega

/-- **C70** for the activities of clauses. -/
theorem clauses {os : List Clauses.Op} {s : Clauses} (hs : Clauses.new.steps os = some s) :
    (∀ c x, s.activity c = some x → Finite x ∧ 16 * value x ≤ value 0x7F7FFFFF) ∧
    2 ^ 123 ≤ value s.bump ∧ 16 * value s.bump ≤ value 0x7F7FFFFF := by
  have k := Clauses.ok_new.steps hs
  have hl : 16 * value limit = value 0x7F7FFFFF := by decide
  refine ⟨fun c x hx => ⟨limit_finite (k.act c x hx), ?_⟩, ?_, ?_⟩
  · have := value_le (show x.val ≤ limit.val from k.act c x hx)
    omega
  · exact Nat.le_trans (by decide) (value_le (show least.val ≤ _ from k.bump.1))
  · have := value_le (show s.bump.val ≤ limit.val from le_of_lt k.bump.2)
    omega

/-- **C70**: the variable that was at least as active stays at least as active, whatever is called, unless the other one is bumped or one
of them is reset. (`set_var_count` gives new variables the activity zero.) -/
theorem order {cs : List Call} {rs : List (Option Nat)} {h h' : Heap} (hc : Heap.new.calls cs = some (rs, h)) {c : Call} {r : Option Nat}
    (hs : h.call c = some (r, h')) {u v : Nat} (hu : u < h.vsids.count) (hv : v < h.vsids.count) (hle : h.vsids.activity u ≤ h.vsids.activity v)
    (h1 : c ≠ .op (.bump u)) (h2 : c ≠ .op (.reset u)) (h3 : c ≠ .op (.reset v)) : h'.vsids.activity u ≤ h'.vsids.activity v := by
  have k := Heap.ok_new.calls hc
  cases c with
  | setDecay d =>
    unfold Heap.call at hs
    simp only at hs
    split at hs
    · cases hs; exact hle
    · cases hs
  | op o =>
    unfold Heap.call at hs
    simp only [Option.map_eq_some_iff] at hs
    obtain ⟨⟨r', v'⟩, k1, k2⟩ := hs
    cases k2
    obtain ⟨-, -, k3, -⟩ := step_ok (arith_ok h.invDecay) k.wf trivial k1
    have e : ∀ w, v'.activity w = ((toQueue h.vsids).step (arith h.invDecay) o r').activity w := fun w => by rw [← k3]; rfl
    show v'.activity u ≤ v'.activity v
    rw [e, e]
    have ha : ∀ w, (toQueue h.vsids).activity w = h.vsids.activity w := fun _ => rfl
    have hct : (toQueue h.vsids).count = h.vsids.count := rfl
    cases o with
    | setVarCount n => simp only [Queue.step, hct, hu, hv, if_true, ha]; exact hle
    | bump w =>
      have hw : u ≠ w := fun hw => h1 (by rw [hw])
      have key : (if u = w then add (h.vsids.activity w) h.vsids.bump else h.vsids.activity u) ≤
          (if v = w then add (h.vsids.activity w) h.vsids.bump else h.vsids.activity v) := by
        rw [if_neg hw]
        split
        · rename_i hvw; subst hvw; exact le_trans hle (le_add _ _)
        · exact hle
      unfold Queue.step
      simp only
      split
      · exact mul_mono key
      · exact key
    | decay =>
      unfold Queue.step
      simp only
      split
      · exact mul_mono hle
      · exact hle
    | reset w =>
      have e1 : u ≠ w := fun hw => h2 (by rw [hw])
      have e2 : v ≠ w := fun hw => h3 (by rw [hw])
      simp only [Queue.step, e1, e2, if_false, ha]; exact hle
    | makeUnavailable w => exact hle
    | makeAvailable w => exact hle
    | next => exact hle

/-- The configuration only lets decay factors through that `set_decay` accepts. -/
theorem config {x : Config.F32} (h : Config.DecayOk x) : ∃ hx : x.toNat < inf + 1, allowed ⟨x.toNat, hx⟩ = true := by
  rw [Config.decayOk_iff] at h
  refine ⟨Nat.lt_trans h.2 (by decide), ?_⟩
  unfold allowed
  simp only [Bool.and_eq_true, decide_eq_true_eq]
  omega

/-- `C35.queue` for `f32`. -/
theorem queue {inv : F} {ops : List Op} {rs : List (Option Nat)} {s : Vsids F}
    (h : (Vsids.new (arith inv)).runs (arith inv) ops = some (rs, s)) : Queue.All (arith inv) Queue.Result (Queue.empty (arith inv)) ops rs :=
  C35.queue (arith_ok inv) h

/-- `C35.maximal_partial` for `f32`; what is missing is said there. -/
theorem maximal_partial {inv : F} {ops : List Op} {rs : List (Option Nat)} {s : Vsids F}
    (h : (Vsids.new (arith inv)).runs (arith inv) ops = some (rs, s))
    (ht : Queue.All (arith inv) (fun q o _ => q.Tame o) (Queue.empty (arith inv)) ops rs) :
    Queue.All (arith inv) Queue.Best (Queue.empty (arith inv)) ops rs :=
  C35.maximal_partial (arith_ok inv) h ht

/-- No number is nearer to `a / b` than the rounded one; infinity counts as `2 ^ 128`. -/
theorem nearest {a b : Nat} (hb : 0 < b) {m : Nat} (hm : m ≤ inf) :
    |(value (round a b) * b : Int) - a| ≤ |(value m * b : Int) - a| := round_nearest hb hm

/-! ### Test cases -/

/-- What a rounded number is. -/
theorem round_eq {a b n : Nat} (hb : 0 < b) (hn : n < inf) (h1 : Reaches a b n) (h2 : ¬ Reaches a b (n + 1)) : round a b = n := by
  refine Nat.le_antisymm ?_ (Nat.le_findGreatest (Nat.le_of_lt hn) h1)
  by_contra hc
  exact h2 ((round_reaches a b).down hb (by omega))

/-- Test: `0.1 + 0.2`, `1.0 / 0.95`, `1.0 / (f32::MAX / 16.0)`, `1.0 + 2 ^ -24` (a tie), and the square of `1.0 / 0.95`. -/
example : round (value 0x3DCCCCCD + value 0x3E4CCCCD) 1 = 0x3E99999A ∧ round (2 ^ 298) (value 0x3F733333) = 0x3F86BCA2 ∧
    round (2 ^ 298) (value 0x7D7FFFFF) = 0x01800001 ∧ round (value 0x3F800000 + value 0x33800000) 1 = 0x3F800000 ∧
    round (value 0x3F86BCA2 * value 0x3F86BCA2) (2 ^ 149) = 0x3F8DD409 := by
  refine ⟨?_, ?_, ?_, ?_, ?_⟩ <;> refine round_eq (by decide) (by decide) ?_ ?_ <;> decide

/-- Test: `f32::MAX + f32::MAX` is infinite, and half of the smallest number is zero. -/
example : round (value 0x7F7FFFFF + value 0x7F7FFFFF) 1 = inf ∧ round (value 1 * value 0x3F000000) (2 ^ 149) = 0 := by
  refine ⟨Nat.le_antisymm (round_le_inf _ _) (le_round (by decide) (by decide) (by decide)), ?_⟩
  exact round_eq (by decide) (by decide) (by decide) (by decide)

/-- Sequences of calls that meet the hypotheses of `heap`, `order` and `clauses`. -/
example : (Heap.new.calls [.setDecay ⟨0x3F000000, by decide⟩, .op (.setVarCount 3), .op (.makeUnavailable 1), .setDecay ⟨0x3F7FFFFF, by decide⟩,
      .op (.bump 1), .op .decay, .op .decay]).isSome = true ∧
    (Clauses.new.steps [.add 1, .add 2, .setDecay ⟨0x3F000000, by decide⟩, .delete 1, .bump 2, .decay]).isSome = true := ⟨rfl, rfl⟩

end Varisat.C70
