import Verif.Proof.Float32
/-!
# The values of the heuristics stay in range
-/
namespace Varisat.Activity
open Flt Vsids

theorem toF_val (a b : Nat) : (toF a b).val = round a b := rfl

theorem add_val {x y : F} (hx : Finite x) (hy : Finite y) : (add x y).val = round (value x + value y) 1 := by
  unfold add; rw [if_pos ⟨hx, hy⟩, toF_val]

theorem mul_val {x y : F} (hx : Finite x) (hy : Finite y) : (mul x y).val = round (value x * value y) (2 ^ 149) := by
  unfold mul; rw [if_pos ⟨hx, hy⟩, toF_val]

theorem val_le_inf (x : F) : x.val ≤ inf := Nat.le_of_lt_succ x.isLt

/-- A sum is not below its first part. -/
theorem le_add (x y : F) : x ≤ add x y := by
  show x.val ≤ (add x y).val
  by_cases h : Finite x ∧ Finite y
  · rw [add_val h.1 h.2]
    exact le_round (by decide) (val_le_inf x) (by omega)
  · unfold add
    rw [if_neg h]
    exact val_le_inf x

theorem mul_mono {x y z : F} (h : x ≤ y) : mul x z ≤ mul y z := by
  have h' : x.val ≤ y.val := h
  show (mul x z).val ≤ (mul y z).val
  by_cases hy : Finite y ∧ Finite z
  · have hx : Finite x := Nat.lt_of_le_of_lt h' hy.1
    rw [mul_val hx hy.2, mul_val hy.1 hy.2]
    exact round_mono (by decide) (by decide) (Nat.mul_le_mul_right _ (Nat.mul_le_mul_right _ (value_le h')))
  · have : (mul y z).val = inf := by unfold mul; rw [if_neg hy]
    rw [this]
    exact val_le_inf _

/-- What `C35` assumes of the arithmetic. -/
theorem arith_ok (invDecay : F) : ArithOk (arith invDecay) (fun _ => True) where
  one := trivial
  grow := fun _ _ => trivial
  shrink := fun _ _ => trivial
  add := fun x b _ => le_add x b
  mono := fun _ _ h => mul_mono h

/-! ### Ranges -/

theorem factor_range : 3 * 2 ^ 23 ≤ rescaleFactor.val ∧ rescaleFactor.val ≤ 4 * 2 ^ 23 := by
  have e : rescaleFactor.val = round (2 ^ 298) (value limit) := by
    unfold rescaleFactor recip
    rw [if_pos ⟨by decide, by decide⟩, toF_val]
  rw [e]
  exact ⟨le_round (by decide) (by decide) (by decide), round_le (by decide) (by decide)⟩

theorem factor_finite : Finite rescaleFactor := Nat.lt_of_le_of_lt factor_range.2 (by decide)

theorem factor_value : 2 ^ 25 ≤ value rescaleFactor ∧ value rescaleFactor ≤ 2 ^ 26 :=
  ⟨Nat.le_trans (by decide) (value_le factor_range.1), Nat.le_trans (value_le factor_range.2) (by decide)⟩

/-- Everything that is finite becomes small. -/
theorem shrink_lt {x : F} (h : Finite x) : mul x rescaleFactor < limit := by
  show (mul x rescaleFactor).val < limit.val
  rw [mul_val h factor_finite]
  refine Nat.lt_of_le_of_lt (round_le (n := 132 * 2 ^ 23) (by decide) ?_) (by decide)
  refine Nat.le_trans (Nat.mul_le_mul (value_le (Nat.le_of_lt h)) factor_value.2) (by decide)

/-- The smallest value of a bump: `2 ^ -26`. -/
def least : F := ⟨101 * 2 ^ 23, by decide⟩

theorem shrink_ge {x : F} (h : Finite x) (hv : 2 ^ 248 ≤ value x) : least ≤ mul x rescaleFactor := by
  show least.val ≤ (mul x rescaleFactor).val
  rw [mul_val h factor_finite]
  refine le_round (by decide) (by decide) ?_
  refine Nat.le_trans ?_ (Nat.mul_le_mul hv factor_value.1)
  decide

theorem recip_range {d : F} (h : allowed d = true) : one ≤ recip d ∧ (recip d).val ≤ 131 * 2 ^ 23 := by
  unfold allowed at h
  simp only [Bool.and_eq_true, decide_eq_true_eq] at h
  have hf : Finite d := Nat.lt_trans h.1 (by decide)
  have e : (recip d).val = round (2 ^ 298) (value d) := by
    unfold recip
    rw [if_pos ⟨hf, by omega⟩, toF_val]
  have h1 := value_le (Nat.le_of_lt h.1)
  have h2 := value_le (Nat.le_of_lt h.2)
  have e1 : value 0x3F800000 = 2 ^ 149 := by decide
  have e2 : value 0x3D800000 = 2 ^ 145 := by decide
  rw [e1] at h1
  rw [e2] at h2
  have hp : 0 < value d := Nat.lt_of_lt_of_le (by decide) h2
  refine ⟨?_, ?_⟩
  · show one.val ≤ (recip d).val
    rw [e]
    refine le_round hp (by decide) ?_
    rw [show value one = 2 ^ 149 by decide]
    exact Nat.le_trans (Nat.mul_le_mul_left _ h1) (by decide)
  · rw [e]
    refine round_le hp ?_
    rw [show value (131 * 2 ^ 23) = 2 ^ 153 by decide]
    exact Nat.le_trans (by decide) (Nat.mul_le_mul_left _ h2)

/-- The multiplier of a decay. -/
def InvOk (x : F) : Prop := one ≤ x ∧ x.val ≤ 131 * 2 ^ 23

theorem grow_range {b inv : F} (hi : InvOk inv) (hb : b ≤ limit) : b ≤ mul b inv ∧ Finite (mul b inv) := by
  have hb' : b.val ≤ limit.val := hb
  have hf : Finite b := Nat.lt_of_le_of_lt hb' (by decide)
  have hg : Finite inv := Nat.lt_of_le_of_lt hi.2 (by decide)
  have h1 : one.val ≤ inv.val := hi.1
  have h1 := value_le h1
  have h2 := value_le hi.2
  have h3 := value_le hb'
  rw [show value one = 2 ^ 149 by decide] at h1
  rw [show value (131 * 2 ^ 23) = 2 ^ 153 by decide] at h2
  refine ⟨?_, ?_⟩
  · show b.val ≤ (mul b inv).val
    rw [mul_val hf hg]
    exact le_round (by decide) (val_le_inf b) (Nat.mul_le_mul_left _ h1)
  · show (mul b inv).val < inf
    rw [mul_val hf hg]
    refine Nat.lt_of_le_of_lt (round_le (n := 0x7F7FFFFF) (by decide) ?_) (by decide)
    exact Nat.le_trans (Nat.mul_le_mul h3 h2) (by decide)

theorem add_finite {x b : F} (hx : x ≤ limit) (hb : b ≤ limit) : Finite (add x b) := by
  have hx' : x.val ≤ limit.val := hx
  have hb' : b.val ≤ limit.val := hb
  have hf : Finite x := Nat.lt_of_le_of_lt hx' (by decide)
  have hg : Finite b := Nat.lt_of_le_of_lt hb' (by decide)
  show (add x b).val < inf
  rw [add_val hf hg]
  refine Nat.lt_of_le_of_lt (round_le (n := 0x7F7FFFFF) (by decide) ?_) (by decide)
  have := value_le hx'
  have := value_le hb'
  have : value limit + value limit ≤ value 0x7F7FFFFF * 1 := by decide
  omega

/-- A sum exceeds a number close to the limit only if the bump is large. -/
theorem bump_large {x b : F} {n : Nat} (hn : n = limit.val ∨ n = limit.val + 1) (hx : x.val < n) (hb : b ≤ limit) (h : n ≤ (add x b).val) :
    2 ^ 248 ≤ value b := by
  have hb' : b.val ≤ limit.val := hb
  have hf : Finite x := Nat.lt_of_lt_of_le hx (by rcases hn with rfl | rfl <;> decide)
  have hg : Finite b := Nat.lt_of_le_of_lt hb' (by decide)
  rw [add_val hf hg] at h
  have h1 := ((round_reaches (value x + value b) 1).down (by decide) h).le
  have h2 := value_le (show x.val ≤ n - 1 by omega)
  have h3 : value (n - 1) + 2 ^ 249 ≤ value n := by rcases hn with rfl | rfl <;> decide
  have h4 : 2 * 2 ^ 248 = 2 ^ 249 := by decide
  omega

/-- The bump value between calls. -/
def Bump (b : F) : Prop := least ≤ b ∧ b < limit

theorem limit_finite {x : F} (h : x ≤ limit) : Finite x := Nat.lt_of_le_of_lt (show x.val ≤ limit.val from h) (by decide)

theorem zero_lt : zero < limit := by decide

theorem bump_one : Bump one := by unfold Bump; decide

theorem bump_decay {b inv : F} (hb : Bump b) (hi : InvOk inv) :
    (mul b inv < limit → Bump (mul b inv)) ∧ (limit ≤ mul b inv → Bump (mul (mul b inv) rescaleFactor)) := by
  obtain ⟨h1, h2⟩ := grow_range hi (le_of_lt hb.2)
  refine ⟨fun h => ⟨le_trans hb.1 h1, h⟩, fun h => ⟨shrink_ge h2 ?_, shrink_lt h2⟩⟩
  exact Nat.le_trans (by decide) (value_le (show limit.val ≤ (mul b inv).val from h))

theorem bump_rescale {b x : F} {n : Nat} (hb : Bump b) (hn : n = limit.val ∨ n = limit.val + 1) (hx : x.val < n)
    (h : n ≤ (add x b).val) : Bump (mul b rescaleFactor) :=
  ⟨shrink_ge (limit_finite (le_of_lt hb.2)) (bump_large hn hx (le_of_lt hb.2) h), shrink_lt (limit_finite (le_of_lt hb.2))⟩

/-! ### The heap -/

/-- The values of the heap between calls. -/
structure Fine (q : Queue F) : Prop where
  act : ∀ v, q.activity v < limit
  bump : Bump q.bump

theorem Fine.step {q : Queue F} (h : Fine q) {inv : F} (hi : InvOk inv) (o : Op) (r : Option Nat) : Fine (q.step (arith inv) o r) := by
  have hz : ∀ (p : Nat → Prop) [∀ v, Decidable (p v)] (v : Nat), (if p v then q.activity v else (arith inv).zero) < limit := by
    intro p _ v
    split
    · exact h.act v
    · exact zero_lt
  cases o with
  | setVarCount n => exact ⟨hz _, h.bump⟩
  | bump v =>
    have hf : Finite (add (q.activity v) q.bump) := add_finite (le_of_lt (h.act v)) (le_of_lt h.bump.2)
    have e : (arith inv).add = add := rfl
    by_cases hbig : limit ≤ add (q.activity v) q.bump
    · have hs : q.step (arith inv) (.bump v) r = Queue.scaled (arith inv) { q with
          activity := fun w => if w = v then add (q.activity v) q.bump else q.activity w } := by
        unfold Queue.step
        simp only [e, show (arith inv).big = fun x => decide (limit ≤ x) from rfl, hbig, decide_true, if_true]
      rw [hs]
      refine ⟨fun w => shrink_lt ?_, bump_rescale h.bump (.inl rfl) (show (q.activity v).val < limit.val from h.act v) hbig⟩
      show Finite (if w = v then add (q.activity v) q.bump else q.activity w)
      split
      · exact hf
      · exact limit_finite (le_of_lt (h.act w))
    · have hs : q.step (arith inv) (.bump v) r = { q with
          activity := fun w => if w = v then add (q.activity v) q.bump else q.activity w } := by
        unfold Queue.step
        simp only [e, show (arith inv).big = fun x => decide (limit ≤ x) from rfl, hbig, decide_false, Bool.false_eq_true, if_false]
      rw [hs]
      refine ⟨fun w => ?_, h.bump⟩
      show (if w = v then add (q.activity v) q.bump else q.activity w) < limit
      split
      · exact lt_of_not_ge hbig
      · exact h.act w
  | decay =>
    obtain ⟨k1, k2⟩ := bump_decay h.bump hi
    by_cases hbig : limit ≤ mul q.bump inv
    · have hs : q.step (arith inv) .decay r = Queue.scaled (arith inv) { q with bump := mul q.bump inv } := by
        unfold Queue.step
        simp only [show (arith inv).big = fun x => decide (limit ≤ x) from rfl, show (arith inv).grow q.bump = mul q.bump inv from rfl, hbig,
          decide_true, if_true]
      rw [hs]
      exact ⟨fun w => shrink_lt (limit_finite (le_of_lt (h.act w))), k2 hbig⟩
    · have hs : q.step (arith inv) .decay r = { q with bump := mul q.bump inv } := by
        unfold Queue.step
        simp only [show (arith inv).big = fun x => decide (limit ≤ x) from rfl, show (arith inv).grow q.bump = mul q.bump inv from rfl, hbig,
          decide_false, Bool.false_eq_true, if_false]
      rw [hs]
      exact ⟨h.act, k1 (lt_of_not_ge hbig)⟩
  | reset v =>
    refine ⟨fun w => ?_, h.bump⟩
    show (if w = v then zero else q.activity w) < limit
    split
    · exact zero_lt
    · exact h.act w
  | makeUnavailable v => exact ⟨h.act, h.bump⟩
  | makeAvailable v => exact ⟨h.act, h.bump⟩
  | next => exact ⟨h.act, h.bump⟩

/-- The heap between calls. -/
structure Heap.Ok (h : Heap) : Prop where
  wf : WF h.vsids
  fine : Fine (toQueue h.vsids)
  inv : InvOk h.invDecay

theorem recip_ok {d : F} (h : allowed d = true) : InvOk (recip d) := recip_range h

theorem Heap.ok_new : Heap.new.Ok where
  wf := (wf_init _).1
  fine := ⟨fun _ => zero_lt, bump_one⟩
  inv := recip_ok (d := vsidsDecay) (by decide)

theorem Heap.Ok.call {h h' : Heap} (k : h.Ok) {c : Call} {r : Option Nat} (hc : h.call c = some (r, h')) : h'.Ok := by
  cases c with
  | setDecay d =>
    unfold Heap.call at hc
    simp only at hc
    split at hc
    · rename_i ha
      cases hc
      exact ⟨k.wf, k.fine, recip_range ha⟩
    · cases hc
  | op o =>
    unfold Heap.call at hc
    simp only [Option.map_eq_some_iff] at hc
    obtain ⟨⟨r', v'⟩, h1, h2⟩ := hc
    cases h2
    obtain ⟨k1, -, k3, -⟩ := step_ok (arith_ok h.invDecay) k.wf trivial h1
    refine ⟨k1, ?_, k.inv⟩
    show Fine (toQueue v')
    rw [k3]
    exact k.fine.step k.inv o _

theorem Heap.Ok.calls {h h' : Heap} (k : h.Ok) {cs : List Call} {rs : List (Option Nat)} (hc : h.calls cs = some (rs, h')) : h'.Ok := by
  induction cs generalizing h rs with
  | nil => cases hc; exact k
  | cons c cs ih =>
    unfold Heap.calls at hc
    simp only [Option.bind_eq_bind, Option.bind_eq_some_iff] at hc
    obtain ⟨⟨r, g⟩, h1, ⟨rs', g'⟩, h2, h3⟩ := hc
    cases h3
    exact ih (k.call h1) h2

/-! ### Clauses -/

/-- The values of the clauses between operations. -/
structure Clauses.Ok (s : Clauses) : Prop where
  act : ∀ c x, s.activity c = some x → x ≤ limit
  bump : Bump s.bump
  inv : InvOk s.invDecay

theorem Clauses.ok_new : Clauses.new.Ok where
  act := by
    intro c x h
    have h : none = some x := h
    simp at h
  bump := bump_one
  inv := recip_ok (d := clauseDecay) (by decide)

theorem Clauses.rescale_act {s : Clauses} (h : ∀ c x, s.activity c = some x → Finite x) (c : Nat) (x : F)
    (hx : s.rescale.activity c = some x) : x ≤ limit := by
  unfold Clauses.rescale at hx
  simp only [Option.map_eq_some_iff] at hx
  obtain ⟨y, h1, rfl⟩ := hx
  exact le_of_lt (shrink_lt (h c y h1))

theorem Clauses.Ok.step {s s' : Clauses} (k : s.Ok) {o : Op} (h : s.step o = some s') : s'.Ok := by
  cases o with
  | add c =>
    cases h
    refine ⟨fun d x hx => ?_, k.bump, k.inv⟩
    simp only at hx
    split at hx
    · cases hx; exact le_of_lt zero_lt
    · exact k.act d x hx
  | delete c =>
    cases h
    refine ⟨fun d x hx => ?_, k.bump, k.inv⟩
    simp only at hx
    split at hx
    · cases hx
    · exact k.act d x hx
  | bump c =>
    unfold Clauses.step at h
    simp only at h
    split at h
    · cases h
    · rename_i y hy
      have hy' := k.act c y hy
      have hf := add_finite hy' (le_of_lt k.bump.2)
      cases h
      split
      · rename_i hlt
        refine ⟨fun d x hx => Clauses.rescale_act (fun d x hx => ?_) d x hx, ?_, k.inv⟩
        · simp only at hx
          split at hx
          · cases hx; exact hf
          · exact limit_finite (k.act d x hx)
        · exact bump_rescale k.bump (.inr rfl) (Nat.lt_succ_of_le (show y.val ≤ limit.val from hy')) (show limit.val < _ from hlt)
      · rename_i hlt
        refine ⟨fun d x hx => ?_, k.bump, k.inv⟩
        simp only at hx
        split at hx
        · cases hx; exact le_of_not_gt hlt
        · exact k.act d x hx
  | decay =>
    obtain ⟨k1, k2⟩ := bump_decay k.bump k.inv
    unfold Clauses.step at h
    cases h
    simp only
    split
    · rename_i hbig
      exact ⟨fun d x hx => Clauses.rescale_act (fun d x hx => limit_finite (k.act d x hx)) d x hx, k2 hbig, k.inv⟩
    · rename_i hbig
      exact ⟨k.act, k1 (lt_of_not_ge hbig), k.inv⟩
  | setDecay d =>
    unfold Clauses.step at h
    simp only at h
    split at h
    · rename_i ha
      cases h
      exact ⟨k.act, k.bump, recip_range ha⟩
    · cases h

theorem Clauses.Ok.steps {s s' : Clauses} (k : s.Ok) {os : List Op} (h : s.steps os = some s') : s'.Ok := by
  induction os generalizing s with
  | nil => cases h; exact k
  | cons o os ih =>
    unfold Clauses.steps at h
    simp only [Option.bind_eq_bind, Option.bind_eq_some_iff] at h
    obtain ⟨t, h1, h2⟩ := h
    exact ih (k.step h1) h2

end Varisat.Activity
