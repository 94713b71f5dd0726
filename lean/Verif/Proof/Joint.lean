import Verif.Model.Joint
import Verif.Proof.ProofOut
import Verif.Proof.CheckerReorder
import Verif.Proof.CheckerRefuted
/-! The proof output follows the steps of the solver: what the checker has seen and what was written. -/
namespace Varisat.Out
open Checker (Shown Sees restOf addsOf Accepting View)

theorem restOf_append : ∀ (L M : List ProofStep), restOf (L ++ M) = restOf L ++ restOf M
  | [], M => rfl
  | st :: L, M => by
    have ih := restOf_append L M
    cases st <;> simp only [List.cons_append, restOf, ih]

theorem addsOf_append : ∀ (L M : List ProofStep), addsOf (L ++ M) = addsOf L ++ addsOf M
  | [], M => rfl
  | st :: L, M => by
    have ih := addsOf_append L M
    cases st <;> simp only [List.cons_append, addsOf, ih]

/-- One of the DRAT formats. -/
def IsDrat (f : Option Format) : Prop := ∃ g, f = some g ∧ g ≠ .varisat

theorem IsDrat.isSome {f : Option Format} (h : IsDrat f) : f.isSome := by
  obtain ⟨g, rfl, -⟩ := h; rfl

/-- A step for which DRAT output panics; clauses added before the first `solve` are not written. -/
def Unwritable (inv : Bool) (st : ProofStep) : Prop := Drat.steps st = none ∧ (inv = false → ∀ c, st ≠ .addClause c)

/-- The proof output has followed the steps `log`; the steps `P` were those before the first `solve`. -/
structure Follows (env : Env) (f : Option Format) (check : Bool) (P log : List ProofStep) (o : Sess) : Prop where
  err : o.error.isSome → o.proof.checker = none ∧ o.proof.format = none
  chk : ∀ c, o.proof.checker = some c → ∃ V, Shown log V ∧ Sees c V ∧ c.hashBits = 64 ∧ Checker.Witnessed c
  cnt : o.proof.format = some .varisat → o.proof.count = netClauses log
  file : o.proof.format.isSome → ∃ Q, log = P ++ Q ∧ o.proof.given = restOf P ++ Q
  raw : IsDrat o.proof.format → o.proof.written = o.proof.given ∧ ∀ st ∈ o.proof.written, (Drat.steps st).isSome
  early : o.invoked = false → P = log
  keep : o.error = none → o.proof.format = f ∧ o.proof.checker.isSome = check
  bits : Bits o
  why : ∀ x, o.error = some x → x = .io ∧ ∃ n, env.io n = false

variable {env : Env} {f : Option Format} {check : Bool}

theorem Follows.congr {P log : List ProofStep} {o o' : Sess} (h : Follows env f check P log o) (h1 : o'.proof = o.proof) (h2 : o'.error = o.error)
    (h3 : o'.invoked = o.invoked) (h4 : o'.files = o.files) : Follows env f check P log o' :=
  ⟨by rw [h1, h2]; exact h.err, by rw [h1]; exact h.chk, by rw [h1]; exact h.cnt, by rw [h1]; exact h.file, by rw [h1]; exact h.raw, by rw [h3]; exact h.early, by rw [h1, h2]; exact h.keep,
    h.bits.congr h4 (by rw [h1]) (by rw [h1]) (by rw [h1]) (by rw [h1]) (by rw [h3]; exact id), by rw [h2]; exact h.why⟩

/-- Room for the clauses: the number of hash bits stays within 64. -/
theorem nextBits_le {i : Bool} {c : Int} {b : Nat} (hb : BitRange b) (hc : c ≤ 2 ^ 32) : nextBits i c b ≤ 64 := by
  have hg : grow c b ≤ 64 := by
    by_cases h : grow c b = b
    · rw [h]; exact hb.2.1
    · have h1 := grow_tight c b h
      have h2 : (2 : Int) ^ (grow c b / 2) < 2 ^ 33 := by omega
      have h3 : grow c b / 2 < 33 := by
        by_contra hcon
        have h4 : 2 ^ 33 ≤ 2 ^ (grow c b / 2) := Nat.pow_le_pow_right (by decide) (by omega)
        have h5 : ((2 ^ 33 : Nat) : Int) ≤ ((2 ^ (grow c b / 2) : Nat) : Int) := Int.ofNat_le.2 h4
        simp only [Int.natCast_pow, Int.cast_ofNat_Int] at h5
        omega
      have := grow_mod c b
      have := hb.2.2
      omega
  unfold nextBits
  cases i
  · exact hg
  · exact Nat.le_trans (shrink_le _ _) hg

section
variable {P log : List ProofStep} {o : Sess} {st : ProofStep}

theorem putStep_full {x y : ProofStep} {s : Sess} : (putStep env s x y).1.proof.count = s.proof.count ∧
    (putStep env s x y).1.proof.format = s.proof.format ∧ (putStep env s x y).1.proof.checker = s.proof.checker ∧
    (putStep env s x y).1.error = s.error ∧ (putStep env s x y).1.invalid = s.invalid ∧
    ((putStep env s x y).2 = true → (putStep env s x y).1.proof.given = s.proof.given ++ [x]) := by
  unfold putStep put
  cases env.io s.ios <;> simp

theorem putStep_written {x y : ProofStep} {s : Sess} (h : (putStep env s x y).2 = true) :
    (putStep env s x y).1.proof.written = s.proof.written ++ [y] := by
  unfold putStep put at h ⊢
  cases hio : env.io s.ios
  · rw [hio] at h; simp at h
  · simp

theorem put_full {x : ProofStep} {s : Sess} : (put env s x).1.proof.count = s.proof.count ∧
    (put env s x).1.proof.format = s.proof.format ∧ (put env s x).1.proof.checker = s.proof.checker ∧
    (put env s x).1.error = s.error ∧ (put env s x).1.invalid = s.invalid ∧ (put env s x).1.proof.given = s.proof.given := by
  unfold put
  cases env.io s.ios <;> simp

/-- Writing a step: no panic unless DRAT does not know the step, and what is kept. -/
theorem writeOut_full (hB : Bits o) (hc : o.proof.format = some .varisat → o.proof.count + delta st ≤ 2 ^ 32) :
    (writeOut env o st = none ∧ IsDrat o.proof.format ∧ Drat.steps st = none) ∨
    ∃ o' ok, writeOut env o st = some (o', ok) ∧ o'.proof.format = o.proof.format ∧ o'.proof.checker = o.proof.checker ∧
      o'.error = o.error ∧ o'.invalid = o.invalid ∧
      (o.proof.format = some .varisat → ok = true → o'.proof.count = o.proof.count + delta st) ∧
      (o.proof.format.isSome → ok = true → o'.proof.given = o.proof.given ++ [st]) ∧
      (IsDrat o.proof.format → ok = true → o'.proof.written = o.proof.written ++ [st] ∧ (Drat.steps st).isSome) := by
  unfold writeOut
  split
  · rename_i hf
    have hnd : ¬ IsDrat o.proof.format := fun ⟨g, h1, h2⟩ => h2 (by rw [hf] at h1; exact (Option.some.inj h1).symm)
    have hn := nextBits_le (i := o.invoked) hB.range (hc hf)
    right
    unfold writeVarisat
    simp only
    split
    · rename_i hr
      obtain ⟨a1, a2, a3, a4, a5, a6⟩ := put_full (env := env) (x := .changeHashBits (nextBits o.invoked (o.proof.count + delta st) o.proof.hashBits))
        (s := { o with proof := { o.proof with count := o.proof.count + delta st, hashBits := nextBits o.invoked (o.proof.count + delta st) o.proof.hashBits } })
      split
      · exact ⟨_, _, rfl, a2, a3, a4, a5, (fun _ h => by cases h), (fun _ h => by cases h), fun h => absurd h hnd⟩
      · rw [if_neg (by omega)]
        obtain ⟨b1, b2, b3, b4, b5, b6⟩ := putStep_full (env := env) (x := st)
          (y := mapHashes (· >>> (64 - nextBits o.invoked (o.proof.count + delta st) o.proof.hashBits)) st)
          (s := (put env { o with proof := { o.proof with count := o.proof.count + delta st, hashBits := nextBits o.invoked (o.proof.count + delta st) o.proof.hashBits } }
            (.changeHashBits (nextBits o.invoked (o.proof.count + delta st) o.proof.hashBits))).1)
        refine ⟨_, _, rfl, b2.trans a2, b3.trans a3, b4.trans a4, b5.trans a5, fun _ h => b1.trans a1, fun _ h => (b6 h).trans (by rw [a6]), fun h => absurd h hnd⟩
    · simp only [Bool.not_true, Bool.false_eq_true, if_false]
      rw [if_neg (by omega)]
      obtain ⟨b1, b2, b3, b4, b5, b6⟩ := putStep_full (env := env) (x := st)
          (y := mapHashes (· >>> (64 - nextBits o.invoked (o.proof.count + delta st) o.proof.hashBits)) st)
          (s := { o with proof := { o.proof with count := o.proof.count + delta st, hashBits := nextBits o.invoked (o.proof.count + delta st) o.proof.hashBits } })
      exact ⟨_, _, rfl, b2, b3, b4, b5, fun _ h => b1, fun _ h => b6 h, fun h => absurd h hnd⟩
  · rename_i f hnv hf
    obtain ⟨b1, b2, b3, b4, b5, b6⟩ := putStep_full (env := env) (x := st) (y := st) (s := o)
    split
    · rename_i hd
      exact .inr ⟨_, _, rfl, b2, b3, b4, b5, fun h => absurd h (by rw [hf]; simpa using hnv), fun _ h => b6 h, fun _ h => ⟨putStep_written h, hd⟩⟩
    · rename_i hd
      exact .inl ⟨rfl, ⟨f, hf, by simpa using hnv⟩, by simpa using hd⟩
  · rename_i hf
    exact .inr ⟨o, true, rfl, rfl, rfl, rfl, rfl, (fun h => by rw [hf] at h; cases h), (fun h => by rw [hf] at h; cases h),
      fun h => by have := h.isSome; rw [hf] at this; cases this⟩

theorem writeOut_io (hio : ∀ n, env.io n = true) {ok : Bool} {o' : Sess} (h : writeOut env o st = some (o', ok)) : ok = true := by
  have hput : ∀ s x, (put env s x).2 = true := fun s x => by unfold put; rw [if_pos (hio _)]
  have hstep : ∀ s x y, (putStep env s x y).2 = true := fun s x y => hput s y
  unfold writeOut at h
  split at h
  · unfold writeVarisat at h
    simp only at h
    split at h
    · rw [hput] at h
      simp only [Bool.not_true, Bool.false_eq_true, if_false] at h
      split at h
      · cases h
      · have := congrArg (fun x => x.map Prod.snd) h
        simp only [Option.map_some, Option.some.injEq] at this
        rw [← this]; exact hstep _ _ _
    · simp only [Bool.not_true, Bool.false_eq_true, if_false] at h
      split at h
      · cases h
      · have := congrArg (fun x => x.map Prod.snd) h
        simp only [Option.map_some, Option.some.injEq] at this
        rw [← this]; exact hstep _ _ _
  · split at h
    · have := congrArg (fun x => x.map Prod.snd) h
      simp only [Option.map_some, Option.some.injEq] at this
      rw [← this]; exact hstep _ _ _
    · cases h
  · cases h; rfl

theorem writeOut_io_false {o' : Sess} (h : writeOut env o st = some (o', false)) : ∃ n, env.io n = false := by
  by_contra hn
  push Not at hn
  have := writeOut_io (env := env) (fun n => by simpa using hn n) h
  cases this

theorem handleIo_follows {o1 : Sess} {inv : Bool} (hB : Bits (handleIo o1 false)) (hi : o1.invoked = inv) (he : inv = false → P = log)
    (hw : ∃ n, env.io n = false) :
    Follows env f check P log (handleIo o1 false) := by
  refine ⟨fun _ => ⟨rfl, rfl⟩, fun c h => ?_, fun h => ?_, fun h => ?_, fun h => ?_, fun h => he (hi.symm.trans h), fun h => ?_, hB, fun x h => by cases h; exact ⟨rfl, hw⟩⟩
  · cases h
  · cases h
  · cases h
  · cases h.isSome
  · cases h

theorem mapHashes_full (st : ProofStep) : mapHashes (· >>> (64 - 64)) st = st := by
  cases st <;> simp [mapHashes]

variable (ha : Accepting env.chk)
include ha

/-- `add_step` on a step the checker accepts. -/
theorem addStep_follows (h : Follows env f check P log o) {V : View} (hs : Shown log V) (hacc : V.Acc st) (htr : V.Tr st)
    (hc : f = some .varisat → netClauses (log ++ [st]) ≤ 2 ^ 32)
    (hst : o.invoked = false → ∀ c, st ≠ .addClause c) :
    (addStep env o st = none ∧ IsDrat f ∧ Unwritable o.invoked st) ∨
    ∃ o', addStep env o st = some o' ∧ Follows env f check (if o.invoked then P else P ++ [st]) (log ++ [st]) o' ∧ o'.invoked = o.invoked ∧
      o'.invalid = o.invalid := by
  have hbit : st.isBits = false := by cases st <;> first | rfl | exact absurd hacc id
  have hearly : o.invoked = false → (if o.invoked then P else P ++ [st]) = log ++ [st] := fun hi => by rw [hi, h.early hi]; rfl
  suffices hh : (addStep env o st = none ∧ IsDrat f ∧ Unwritable o.invoked st) ∨
      ∃ o', addStep env o st = some o' ∧ (Bits o' → Follows env f check (if o.invoked then P else P ++ [st]) (log ++ [st]) o') ∧
      o'.invalid = o.invalid by
    rcases hh with hh | ⟨o', h1, h2, h3⟩
    · exact .inl hh
    exact .inr ⟨o', h1, h2 (addStep_bits h.bits hbit h1), addStep_invoked h1, h3⟩
  unfold addStep
  split
  · rename_i he
    obtain ⟨h1, h2⟩ := h.err he
    exact .inr ⟨o, rfl, fun hB => ⟨h.err, fun c h => (by rw [h1] at h; cases h), fun h => (by rw [h2] at h; cases h),
      fun h => (by rw [h2] at h; cases h), fun h => (by have := h.isSome; rw [h2] at this; cases this), hearly, h.keep, hB, h.why⟩, rfl⟩
  · rename_i he
    rcases writeOut_full (env := env) (st := st) h.bits (fun hf => by
      rw [h.cnt hf, ← netClauses_snoc]; exact hc ((h.keep (by simpa using he)).1.symm.trans hf)) with
      ⟨e1, e2, e3⟩ | ⟨o1, ok, e1, e2, e3, e4, e5, e6, e7, e8⟩
    · rw [e1]
      refine .inl ⟨rfl, ?_, e3, hst⟩
      rw [← (h.keep (by simpa using he)).1]; exact e2
    right
    have ei := writeOut_invoked e1
    rw [e1]
    cases ok with
    | false =>
      refine ⟨_, rfl, fun hB => handleIo_follows hB ei hearly (writeOut_io_false e1), e5⟩
    | true =>
      simp only
      have hfile : ∀ o2 : Sess, o2.proof.format = o1.proof.format → o2.proof.count = o1.proof.count →
          o2.proof.given = o1.proof.given → o2.proof.written = o1.proof.written →
          (o2.proof.format = some .varisat → o2.proof.count = netClauses (log ++ [st])) ∧
          (o2.proof.format.isSome → ∃ Q, log ++ [st] = (if o.invoked then P else P ++ [st]) ++ Q ∧
            o2.proof.given = restOf (if o.invoked then P else P ++ [st]) ++ Q) ∧
          (IsDrat o2.proof.format → o2.proof.written = o2.proof.given ∧ ∀ st ∈ o2.proof.written, (Drat.steps st).isSome) := by
        intro o2 f1 f2 f3 f4
        refine ⟨fun hf => ?_, fun hf => ?_, fun hf => ?_⟩
        · have hf : o.proof.format = some .varisat := by rw [← e2, ← f1]; exact hf
          rw [f2, e6 hf rfl, h.cnt hf, netClauses_snoc]
        · have hf : o.proof.format.isSome := by rw [← e2, ← f1]; exact hf
          obtain ⟨Q, q1, q2⟩ := h.file hf
          rw [f3, e7 hf rfl, q2]
          cases hi : o.invoked with
          | true => exact ⟨Q ++ [st], by rw [q1]; simp, by simp⟩
          | false =>
            have hl := h.early hi
            have hQ : Q = [] := by
              have := congrArg List.length q1
              rw [List.length_append, ← hl] at this
              exact List.length_eq_zero_iff.1 (by omega)
            subst hQ
            refine ⟨[], by rw [hl]; simp, ?_⟩
            simp only [List.append_nil, Bool.false_eq_true, if_false]
            rw [restOf_append]
            congr 1
            cases st <;> first | rfl | exact absurd rfl (hst hi _)
        · have hf : IsDrat o.proof.format := by rw [← e2, ← f1]; exact hf
          obtain ⟨r1, r2⟩ := h.raw hf
          rw [f3, f4, (e8 hf rfl).1, e7 hf.isSome rfl]
          refine ⟨by rw [r1], fun x hx => ?_⟩
          rcases List.mem_append.1 hx with hx | hx
          · exact r2 x hx
          · rw [List.mem_singleton.1 hx]; exact (e8 hf rfl).2
      have hearly' : ∀ o2 : Sess, o2.invoked = o1.invoked → o2.invoked = false →
          (if o.invoked then P else P ++ [st]) = log ++ [st] := fun o2 g1 g2 => hearly (by rw [← ei, ← g1]; exact g2)
      have hne : o1.error.isSome = false := by
        rw [e4]; simpa using he
      unfold tell
      cases hk : o1.proof.checker with
      | none =>
        obtain ⟨f1, f2, f3⟩ := hfile o1 rfl rfl rfl rfl
        exact ⟨o1, rfl, fun hB => ⟨fun h => (by rw [hne] at h; cases h), fun c h => (by rw [hk] at h; cases h), f1, f2, f3,
          hearly' o1 rfl, fun h' => (by rw [e2, e3]; exact h.keep (e4.symm.trans h')), hB, by rw [e4]; exact h.why⟩, e5⟩
      | some c =>
        obtain ⟨V', hs', hsee, hcb, hwit⟩ := h.chk c (by rw [← e3]; exact hk)
        obtain ⟨-, rfl⟩ := Checker.shown_iff.1 hs
        obtain ⟨-, rfl⟩ := Checker.shown_iff.1 hs'
        obtain ⟨K, k1, k2, k3⟩ := hsee.step ha (by omega) (by omega) hacc (fun _ => htr)
        rw [hcb, mapHashes_full] at k1
        have k1 : Checker.selfCheckStep env.chk st c = .ok () K := k1
        simp only
        rw [k1]
        obtain ⟨f1, f2, f3⟩ := hfile { o1 with proof := { o1.proof with checker := some K } } rfl rfl rfl rfl
        refine ⟨_, rfl, fun hB => ⟨fun h => (by rw [show _ = false from hne] at h; cases h), ?_, f1, f2, f3, hearly' _ rfl, fun h' => ?_, hB, fun x hx => h.why x (e4.symm.trans hx)⟩, e5⟩
        · intro c' hc'
          obtain rfl := Option.some.inj hc'
          exact ⟨_, hs'.snoc hacc htr, k2, k3.trans hcb, (Checker.op_ok (op := .step st) hsee.c.pre k1).witnessed hwit⟩
        · have := h.keep (e4.symm.trans h')
          refine ⟨e2.trans this.1, ?_⟩
          rw [← this.2, ← e3, hk]; rfl

/-- `add_clause` on a clause the checker accepts. -/
theorem addClause_follows (h : Follows env f check P log o) {V : View} {c : List Lit} (hs : Shown log V) (hacc : V.Acc (.addClause c)) (htr : V.Tr (.addClause c))
    (hc : f = some .varisat → netClauses (log ++ [.addClause c]) ≤ 2 ^ 32) :
    (addClause env o c = none ∧ IsDrat f ∧ Unwritable o.invoked (.addClause c)) ∨
    ∃ o', addClause env o c = some o' ∧ Follows env f check (if o.invoked then P else P ++ [.addClause c]) (log ++ [.addClause c]) o' ∧
      o'.invoked = o.invoked ∧ o'.invalid = o.invalid := by
  cases hi : o.invoked with
  | true =>
    rcases addStep_follows ha h hs hacc htr hc (fun h => by rw [hi] at h; cases h) with ⟨h1, h2⟩ | ⟨o', h1, h2, h3, h4⟩
    · exact .inl ⟨by unfold addClause; rw [if_pos hi]; exact h1, by rw [← hi]; exact h2⟩
    refine .inr ⟨o', by unfold addClause; rw [if_pos hi]; exact h1, by rw [hi] at h2; exact h2, h3.trans hi, h4⟩
  | false =>
    right
    suffices hh : ∃ o', addClause env o c = some o' ∧ (Bits o' → Follows env f check (P ++ [.addClause c]) (log ++ [.addClause c]) o') ∧
        o'.invalid = o.invalid by
      obtain ⟨o', h1, h2, h3⟩ := hh
      exact ⟨o', h1, h2 (addClause_bits h.bits h1), (addClause_invoked h1).trans hi, h3⟩
    unfold addClause
    rw [if_neg (by simp [hi])]
    have hl := h.early hi
    have key : ∀ o1 : Sess, o1.proof.format = o.proof.format → o1.proof.count = o.proof.count → o1.proof.given = o.proof.given →
        o1.proof.written = o.proof.written → o1.error = o.error → (o1.error.isSome → o1.proof.checker = none) →
        o1.proof.checker.isSome = o.proof.checker.isSome →
        (∀ c', o1.proof.checker = some c' → ∃ V, Shown (log ++ [.addClause c]) V ∧ Sees c' V ∧ c'.hashBits = 64 ∧ Checker.Witnessed c') →
        Bits (if c.length > 1 then { o1 with proof := { o1.proof with count := o1.proof.count + 1 } } else o1) →
        Follows env f check (P ++ [.addClause c]) (log ++ [.addClause c])
          (if c.length > 1 then { o1 with proof := { o1.proof with count := o1.proof.count + 1 } } else o1) := by
      intro o1 g1 g2 g3 g8 g4 g5 g7 g6 hB
      refine ⟨fun he => ?_, fun c' hc' => g6 c' ?_, fun hf => ?_, fun hf => ?_, fun hf => ?_, fun _ => by rw [hl], fun he => ?_, hB, fun x hx => h.why x (g4.symm.trans (by split at hx <;> exact hx))⟩
      · have he : o1.error.isSome := by split at he <;> exact he
        have := (h.err (by rw [← g4]; exact he)).2
        refine ⟨?_, ?_⟩
        · split <;> exact g5 he
        · split <;> exact g1.trans this
      · split at hc' <;> exact hc'
      · have hf : o.proof.format = some .varisat := by rw [← g1]; split at hf <;> exact hf
        rw [netClauses_snoc, ← h.cnt hf, ← g2]
        simp only [delta]
        split <;> simp
      · have hf : o.proof.format.isSome := by rw [← g1]; split at hf <;> exact hf
        obtain ⟨Q, q1, q2⟩ := h.file hf
        have hQ : Q = [] := by
          have := congrArg List.length q1
          rw [List.length_append, ← hl] at this
          exact List.length_eq_zero_iff.1 (by omega)
        subst hQ
        refine ⟨[], by rw [hl]; simp, ?_⟩
        rw [restOf_append]
        have : o1.proof.given = restOf P ++ restOf [.addClause c] ++ [] := by rw [g3, q2]; simp [restOf]
        split <;> exact this
      · have hf : IsDrat o.proof.format := by rw [← g1]; split at hf <;> exact hf
        have : o1.proof.written = o1.proof.given ∧ ∀ st ∈ o1.proof.written, (Drat.steps st).isSome := by
          rw [g3, g8]; exact h.raw hf
        split <;> exact this
      · have he : o1.error = none := by split at he <;> exact he
        have := h.keep (g4.symm.trans he)
        have : o1.proof.format = f ∧ o1.proof.checker.isSome = check := ⟨g1.trans this.1, g7.trans this.2⟩
        split <;> exact this
    unfold tell
    cases hk : o.proof.checker with
    | none =>
      simp only
      exact ⟨_, rfl, key o rfl rfl rfl rfl rfl (fun _ => hk) rfl (fun c' h => by rw [hk] at h; cases h), by split <;> rfl⟩
    | some k =>
      obtain ⟨V', hs', hsee, hcb, hwit⟩ := h.chk k hk
      obtain ⟨-, rfl⟩ := Checker.shown_iff.1 hs
      obtain ⟨-, rfl⟩ := Checker.shown_iff.1 hs'
      obtain ⟨K, k1, k2, k3⟩ := hsee.add ha hacc (fun _ => htr)
      have k1 : Checker.addClause env.chk c k = .ok () K := k1
      simp only
      rw [k1]
      simp only [handleCheck]
      refine ⟨_, rfl, key _ rfl rfl rfl rfl rfl (fun he => ?_) (by rw [hk]; rfl) ?_, by split <;> rfl⟩
      · have := (h.err he).1
        rw [hk] at this; cases this
      · intro c' hc'
        obtain rfl := Option.some.inj hc'
        exact ⟨_, hs'.snoc hacc htr, k2, k3.trans hcb, (Checker.op_ok (op := .add c) hsee.c.pre k1).witnessed hwit⟩

open Solver (toEv feed) in
/-- All new steps of a call. -/
theorem feed_follows : ∀ (L : List ProofStep) {P log : List ProofStep} {o : Sess} {V : View}, Follows env f check P log o → Shown (log ++ L) V →
    (f = some .varisat → ∀ M, M <+: log ++ L → netClauses M ≤ 2 ^ 32) →
    (feed env L o = none ∧ IsDrat f ∧ ∃ st ∈ L, Unwritable o.invoked st) ∨
    ∃ o', feed env L o = some o' ∧ Follows env f check (if o.invoked then P else P ++ L) (log ++ L) o' ∧ o'.invoked = o.invoked ∧
      o'.invalid = o.invalid
  | [], P, log, o, V, h, _, _ =>   .inr ⟨o, rfl, by simpa using h, rfl, rfl⟩
  | st :: L, P, log, o, V, h, hs, hc => by
    have happ : log ++ st :: L = (log ++ [st]) ++ L := by simp
    have hs1 : ∃ V1, Shown (log ++ [st]) V1 := by
      rw [happ] at hs
      exact ⟨_, Checker.shown_iff.2 ⟨(Checker.shown_iff.1 hs).1.left.1, rfl⟩⟩
    obtain ⟨V1, hs1⟩ := hs1
    obtain ⟨V0, hs0, hacc, htr, rfl⟩ := hs1.inv
    have hc1 : f = some .varisat → netClauses (log ++ [st]) ≤ 2 ^ 32 := fun hf =>
      hc hf _ (by rw [happ]; exact List.prefix_append _ _)
    have hone : ((toEv st).exec env o = none ∧ IsDrat f ∧ Unwritable o.invoked st) ∨
        ∃ o', (toEv st).exec env o = some o' ∧ Follows env f check (if o.invoked then P else P ++ [st]) (log ++ [st]) o' ∧
        o'.invoked = o.invoked ∧ o'.invalid = o.invalid := by
      by_cases hst : ∃ c, st = .addClause c
      · obtain ⟨c, rfl⟩ := hst
        exact addClause_follows ha h hs0 hacc (htr rfl) hc1
      · have : (toEv st).exec env o = addStep env o st := by
          cases st <;> first | rfl | exact absurd ⟨_, rfl⟩ hst
        rw [this]
        exact addStep_follows ha h hs0 hacc (htr rfl) hc1 (fun _ c hc => hst ⟨c, hc⟩)
    rcases hone with ⟨e1, f1, i1⟩ | ⟨o1, e1, f1, i1, v1⟩
    · refine .inl ⟨?_, f1, st, by simp, i1⟩
      unfold feed
      rw [List.map_cons, runEvs, e1]
    rw [happ] at hs
    rcases feed_follows L f1 hs (fun hf => by
      rw [← happ]
      exact hc hf) with ⟨e2, f2, st', i2, i3⟩ | ⟨o2, e2, f2, i2, v2⟩
    · refine .inl ⟨?_, f2, st', by simp [i2], by rw [← i1]; exact i3⟩
      unfold feed at e2 ⊢
      rw [List.map_cons, runEvs, e1]
      exact e2
    refine .inr ⟨o2, ?_, ?_, i2.trans i1, v2.trans v1⟩
    · unfold feed at e2 ⊢
      rw [List.map_cons, runEvs, e1]
      exact e2
    · rw [happ]
      rw [i1] at f2
      cases hi : o.invoked with
      | true => rw [hi] at f2; exact f2
      | false => rw [hi] at f2; simpa using f2

/-- `solve_finished`. -/
theorem solveFinished_follows (h : Follows env f check P log o) :
    ∃ o', solveFinished env o = some o' ∧ Follows env f check P log o' ∧ o'.invoked = o.invoked ∧ o'.invalid = o.invalid ∧
      ∀ c, o'.proof.checker = some c → c.unsat = true → Checker.Refutes c.out := by
  have hfl : Follows env f check P log (flush env o) ∧ (flush env o).invoked = o.invoked ∧ (flush env o).invalid = o.invalid := by
    unfold flush
    split
    · cases hio : env.io o.ios with
      | true => exact ⟨h.congr rfl rfl rfl rfl, rfl, rfl⟩
      | false =>
        refine ⟨handleIo_follows (inv := o.invoked) ?_ rfl h.early ⟨_, hio⟩, rfl, rfl⟩
        have : Bits { o with ios := o.ios + 1 } := h.bits.congr rfl rfl rfl rfl rfl id
        exact handleIo_bits this.files fun h => by cases h
    · exact ⟨h, rfl, rfl⟩
  obtain ⟨h, i1, i2⟩ := hfl
  unfold solveFinished
  generalize flush env o = o1 at *
  unfold tell
  cases hk : o1.proof.checker with
  | none => exact ⟨o1, rfl, h, i1, i2, fun c h => by rw [hk] at h; cases h⟩
  | some c =>
    obtain ⟨V, hs, hsee, hcb, hwit⟩ := h.chk c hk
    obtain ⟨K, e1, e2, e3, -, e4, e5⟩ := Checker.processUnitConflicts_sees ha hsee hwit
    simp only
    rw [e1]
    simp only [handleCheck]
    refine ⟨_, rfl, ⟨fun he => ?_, ?_, h.cnt, h.file, h.raw, h.early, fun he => ?_, ?_, h.why⟩, i1, i2, ?_⟩
    · have := (h.err he).1
      rw [hk] at this; cases this
    · intro c' hc'
      obtain rfl := Option.some.inj hc'
      exact ⟨V, hs, e2, e3.trans hcb, e4⟩
    · have := h.keep he
      refine ⟨this.1, ?_⟩
      rw [← this.2, hk]; rfl
    · exact h.bits.congr rfl rfl rfl rfl rfl id
    · intro c' hc' hu
      obtain rfl := Option.some.inj hc'
      exact e5 (e2.c.unsat ▸ hu)

omit ha in
/-- A new solver. -/
theorem Follows.setup : Follows env f check [] [] (Solver.setup f check) := by
  refine ⟨(fun h => by cases h), fun c hc => ?_, fun _ => rfl, fun _ => ⟨[], rfl, rfl⟩, fun _ => ⟨rfl, fun _ h => by cases h⟩, fun _ => rfl, fun _ => ⟨rfl, ?_⟩, ?_, fun x h => by cases h⟩
  · cases check with
    | false => cases hc
    | true => cases hc; exact ⟨{}, .nil, Checker.Sees.init, rfl, .init⟩
  · cases check <;> rfl
  · refine ⟨(show BitRange 64 by decide), ?_, fun _ => rfl, fun _ => rfl⟩
    rw [FilesOk.split]
    exact ⟨(fun f hf => by cases hf), fun _ => .nil⟩

end
end Varisat.Out
