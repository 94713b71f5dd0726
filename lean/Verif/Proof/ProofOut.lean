import Verif.Model.ProofOut
import Verif.Spec.ProofFile
import Verif.Proof.CheckerOut
/-! Proof output: errors stay, and hash bits agree with what was announced. -/
namespace Varisat

/-! ### Reading a file -/

def ProofStep.isBits : ProofStep → Bool
  | .changeHashBits _ => true
  | _ => false

theorem told_append (b : Nat) (w w' : List ProofStep) : told b (w ++ w') = told (told b w) w' := by
  induction w generalizing b with
  | nil => rfl
  | cons x w ih => cases x <;> simp only [List.cons_append, told] <;> exact ih _

theorem told_snoc {b : Nat} {w : List ProofStep} {x : ProofStep} (h : x.isBits = false) :
    told b (w ++ [x]) = told b w := by
  rw [told_append]; cases x <;> first | rfl | simp [ProofStep.isBits] at h

theorem ProofStep.cut_isBits (b : Nat) (st : ProofStep) : (st.cut b).isBits = st.isBits := by
  cases st <;> rfl

theorem InStep.cons {b : Nat} {g w : List ProofStep} {st x : ProofStep} (hx : x.isBits = false) :
    InStep b (st :: g) (x :: w) ↔ x = st.cut b ∧ InStep b g w := by
  cases x <;> first | rfl | simp [ProofStep.isBits] at hx

theorem InStep.nil_cons {b : Nat} {w : List ProofStep} {x : ProofStep} (hx : x.isBits = false) :
    InStep b [] (x :: w) ↔ False := by
  cases x <;> first | rfl | simp [ProofStep.isBits] at hx

theorem InStep.announce {b b' : Nat} {g w : List ProofStep} (h : InStep b g w) :
    InStep b g (w ++ [.changeHashBits b']) := by
  induction w generalizing b g with
  | nil =>
    cases g with
    | nil => exact trivial
    | cons _ _ => exact absurd h (by simp [InStep])
  | cons x w ih =>
    cases hx : x.isBits with
    | true => cases x <;> first | (simp [ProofStep.isBits] at hx; done) | exact ih h
    | false =>
      cases g with
      | nil => exact ((InStep.nil_cons hx).1 h).elim
      | cons st g =>
        obtain ⟨h1, h2⟩ := (InStep.cons hx).1 h
        exact (InStep.cons hx).2 ⟨h1, ih h2⟩

theorem InStep.snoc {b : Nat} {g w : List ProofStep} (h : InStep b g w) {st : ProofStep}
    (hst : st.isBits = false) : InStep b (g ++ [st]) (w ++ [st.cut (told b w)]) := by
  induction w generalizing b g with
  | nil =>
    cases g with
    | nil => exact (InStep.cons (by rw [ProofStep.cut_isBits]; exact hst)).2 ⟨rfl, trivial⟩
    | cons _ _ => exact absurd h (by simp [InStep])
  | cons x w ih =>
    cases hx : x.isBits with
    | true => cases x <;> first | (simp [ProofStep.isBits] at hx; done) | exact ih h
    | false =>
      cases g with
      | nil => exact ((InStep.nil_cons hx).1 h).elim
      | cons st g =>
        obtain ⟨h1, h2⟩ := (InStep.cons hx).1 h
        have := ih h2
        refine (InStep.cons hx).2 ⟨h1, ?_⟩
        have ht : told b (x :: w) = told b w := by
          cases x <;> first | rfl | simp [ProofStep.isBits] at hx
        rw [ht]; exact this

/-- The step found at a position. -/
theorem InStep.at {b : Nat} {g pre post : List ProofStep} {x : ProofStep} (hx : x.isBits = false)
    (h : InStep b g (pre ++ x :: post)) :
    ∃ st, g[(pre.filter (!·.isBits)).length]? = some st ∧ x = st.cut (told b pre) := by
  induction pre generalizing b g with
  | nil =>
    cases g with
    | nil => exact ((InStep.nil_cons hx).1 h).elim
    | cons st g => exact ⟨st, rfl, ((InStep.cons hx).1 h).1⟩
  | cons y pre ih =>
    cases hy : y.isBits with
    | true =>
      cases y <;> first | (simp [ProofStep.isBits] at hy; done) | skip
      obtain ⟨st, h1, h2⟩ := ih (b := _) (g := g) h
      exact ⟨st, by simpa [List.filter_cons, ProofStep.isBits] using h1, h2⟩
    | false =>
      cases g with
      | nil => exact ((InStep.nil_cons hy).1 h).elim
      | cons st g =>
        obtain ⟨st', h1, h2⟩ := ih ((InStep.cons hy).1 h).2
        refine ⟨st', by simp [List.filter_cons, hy, h1], ?_⟩
        have ht : told b (y :: pre) = told b pre := by
          cases y <;> first | rfl | simp [ProofStep.isBits] at hy
        rw [ht]; exact h2

/-! ### Reading by the checker -/

theorem Checker.told_execs {env : Checker.Env} {w : List ProofStep} {s s' : Checker.St}
    (h : Checker.execs env (w.map .step) s = .ok () s') : s'.hashBits = told s.hashBits w := by
  induction w generalizing s with
  | nil =>
    have h : (EStateM.Result.ok () s : EStateM.Result Err St Unit) = .ok () s' := h
    simp only [EStateM.Result.ok.injEq, true_and] at h
    subst h; rfl
  | cons x w ih =>
    have h : EStateM.bind (Op.exec env (.step x)) (fun _ => execs env (w.map .step)) s = .ok () s' := h
    unfold EStateM.bind at h
    cases h1 : Op.exec env (.step x) s with
    | error e t => rw [h1] at h; cases h
    | ok u t =>
      rw [h1] at h
      have hb := bits_step env x (s := { s with step := s.step + 1 }) (s' := t) h1
      have := ih h
      rw [this, hb]
      cases x <;> rfl

theorem Checker.told_added {env : Checker.Env} {F : List (List Lit)} {s s' : Checker.St}
    (h : Checker.execs env (F.map .add) s = .ok () s') : s'.hashBits = s.hashBits := by
  induction F generalizing s with
  | nil =>
    have h : (EStateM.Result.ok () s : EStateM.Result Err St Unit) = .ok () s' := h
    simp only [EStateM.Result.ok.injEq, true_and] at h
    subst h; rfl
  | cons x F ih =>
    have h : EStateM.bind (Op.exec env (.add x)) (fun _ => execs env (F.map .add)) s = .ok () s' := h
    unfold EStateM.bind at h
    cases h1 : Op.exec env (.add x) s with
    | error e t => rw [h1] at h; cases h
    | ok u t =>
      rw [h1] at h
      have hp := pres_addClause env x s
      have h1 : addClause env x s = .ok u t := h1
      rw [h1] at hp
      rw [ih h, hp.bits]

end Varisat

namespace Varisat.Out

theorem mapHashes_cut (b : Nat) (st : ProofStep) :
    mapHashes (· >>> (64 - b)) st = st.cut b := by
  cases st <;> simp [mapHashes, ProofStep.cut, cutHash, Nat.shiftRight_eq_div_pow]

/-! ### The two loops -/

theorem grow_le (c : Int) (b : Nat) : b ≤ grow c b := by
  fun_induction grow c b with
  | case1 b h ih => omega
  | case2 b h => omega

theorem grow_mod (c : Int) (b : Nat) : grow c b % 2 = b % 2 := by
  fun_induction grow c b with
  | case1 b h ih => omega
  | case2 b h => rfl

theorem grow_size (c : Int) (b : Nat) : c ≤ 2 ^ (grow c b / 2) := by
  fun_induction grow c b with
  | case1 b h ih => exact ih
  | case2 b h => omega

theorem grow_eq {c : Int} {b : Nat} (h : ¬ c > 2 ^ (b / 2)) : grow c b = b := by
  rw [grow, if_neg h]

/-- Growing stops as soon as there is room. -/
theorem grow_tight (c : Int) (b : Nat) (h : grow c b ≠ b) : 2 ^ (grow c b / 2) < 2 * c := by
  fun_induction grow c b with
  | case1 b h1 ih =>
    by_cases hb : grow c (b + 2) = b + 2
    · rw [hb, Nat.add_div_right _ (by decide), Int.pow_succ]; omega
    · exact ih hb
  | case2 b h1 => exact absurd rfl h

theorem shrink_le (c : Int) (b : Nat) : shrink c b ≤ b := by
  fun_induction shrink c b with
  | case1 b h ih => omega
  | case2 b h => omega

theorem shrink_mod (c : Int) (b : Nat) : shrink c b % 2 = b % 2 := by
  fun_induction shrink c b with
  | case1 b h ih => omega
  | case2 b h => rfl

theorem shrink_ge (c : Int) (b : Nat) (h : 6 ≤ b) (h2 : b % 2 = 0) : 6 ≤ shrink c b := by
  fun_induction shrink c b with
  | case1 b h ih => exact ih (by omega) (by omega)
  | case2 b h => exact h

theorem shrink_size (c : Int) (b : Nat) (h : c ≤ 2 ^ (b / 2)) : c ≤ 2 ^ (shrink c b / 2) := by
  fun_induction shrink c b with
  | case1 b h1 ih =>
    refine ih ?_
    have : b = (b - 2) + 2 := by omega
    have h2 := h1.2
    rw [this, Nat.add_div_right _ (by decide), Int.pow_succ] at h2
    have : (0 : Int) < 2 ^ ((b - 2) / 2) := Int.pow_pos (by decide)
    omega
  | case2 b h1 => exact h

theorem shrink_tight (c : Int) (b : Nat) : shrink c b ≤ 6 ∨ 2 ^ (shrink c b / 2) ≤ c * 4 := by
  fun_induction shrink c b with
  | case1 b h ih => exact ih
  | case2 b h => omega

theorem nextBits_eq {i : Bool} {c : Int} {b : Nat} (h : rehashed i c b = false) : nextBits i c b = b := by
  unfold rehashed at h
  simp only [Bool.or_eq_false_iff, decide_eq_false_iff_not, Bool.and_eq_false_imp] at h
  have hg := grow_eq h.1
  unfold nextBits
  cases i with
  | false => exact hg
  | true =>
    have h2 := h.2 rfl
    simp only [if_true]
    rw [shrink, if_neg h2, hg]

theorem nextBits_mod (i : Bool) (c : Int) (b : Nat) : nextBits i c b % 2 = b % 2 := by
  unfold nextBits
  cases i
  · exact grow_mod c b
  · simp only [if_true]; rw [shrink_mod, grow_mod]

theorem nextBits_ge (i : Bool) (c : Int) (b : Nat) (h : 6 ≤ b) (h2 : b % 2 = 0) : 6 ≤ nextBits i c b := by
  have := grow_le c b
  unfold nextBits
  cases i
  · simp only [Bool.false_eq_true, if_false]; omega
  · exact shrink_ge _ _ (by omega) (by rw [grow_mod]; exact h2)

theorem nextBits_size (i : Bool) (c : Int) (b : Nat) : c ≤ 2 ^ (nextBits i c b / 2) := by
  unfold nextBits
  cases i
  · exact grow_size c b
  · exact shrink_size _ _ (grow_size c b)

/-! ### Hash bits -/

/-- The numbers of bits in use. -/
def BitRange (b : Nat) : Prop := 6 ≤ b ∧ b ≤ 64 ∧ b % 2 = 0

instance (b : Nat) : Decidable (BitRange b) := inferInstanceAs (Decidable (_ ∧ _))

/-- A readable file. -/
structure GoodFile (given written : List ProofStep) : Prop where
  step : InStep 64 given written
  range : ∀ b, .changeHashBits b ∈ written → BitRange b

theorem GoodFile.announce {b : Nat} {g w : List ProofStep} (h : GoodFile g w) (hb : BitRange b) :
    GoodFile g (w ++ [.changeHashBits b]) := by
  refine ⟨h.step.announce, fun b' hm => ?_⟩
  rcases List.mem_append.1 hm with hm | hm
  · exact h.range b' hm
  · rw [List.mem_singleton] at hm; cases hm; exact hb

theorem GoodFile.snoc {g w : List ProofStep} (h : GoodFile g w) {st : ProofStep}
    (hst : st.isBits = false) : GoodFile (g ++ [st]) (w ++ [st.cut (told 64 w)]) := by
  refine ⟨h.step.snoc hst, fun b' hm => ?_⟩
  rcases List.mem_append.1 hm with hm | hm
  · exact h.range b' hm
  · rw [List.mem_singleton] at hm
    have := ProofStep.cut_isBits (told 64 w) st
    rw [← hm, hst] at this; cases this

theorem GoodFile.nil : GoodFile [] [] := ⟨trivial, fun b h => by cases h⟩

/-- Files with clause hashes are readable. -/
def FilesOk (s : Sess) : Prop :=
  ∀ f ∈ s.files ++ s.proof.file, f.format = .varisat → GoodFile f.given f.written

structure Bits (s : Sess) : Prop where
  range : BitRange s.proof.hashBits
  files : FilesOk s
  cur : s.proof.format = some .varisat → told 64 s.proof.written = s.proof.hashBits
  low : s.invoked = false → s.proof.hashBits = 64

theorem FilesOk.split {s : Sess} : FilesOk s ↔
    (∀ f ∈ s.files, f.format = .varisat → GoodFile f.given f.written) ∧
    (s.proof.format = some .varisat → GoodFile s.proof.given s.proof.written) := by
  unfold FilesOk Proof.file
  cases hf : s.proof.format with
  | none =>
    simp only [List.append_nil]
    exact ⟨fun h => ⟨h, by simp⟩, fun h => h.1⟩
  | some f =>
    simp only [List.mem_append, List.mem_singleton, Option.some.injEq]
    constructor
    · intro h
      refine ⟨fun f hf => h f (.inl hf), fun hfv => ?_⟩
      exact h ⟨f, s.proof.given, s.proof.written⟩ (.inr rfl) hfv
    · rintro ⟨h1, h2⟩ f' (hm | rfl) hv
      · exact h1 f' hm hv
      · exact h2 hv

theorem FilesOk.archive {s : Sess} (h : FilesOk s) {p : Proof} (hp : p.given = []) (hw : p.written = []) :
    FilesOk { s with proof := p, files := s.files ++ s.proof.file } := by
  rw [FilesOk.split]
  refine ⟨h, fun _ => ?_⟩
  show GoodFile p.given p.written
  rw [hp, hw]; exact .nil

theorem Bits.drop {s : Sess} (h : FilesOk s) : Bits s.drop :=
  ⟨(show BitRange 64 by decide), h.archive rfl rfl, (fun h => by cases h), fun _ => rfl⟩

theorem writeVarisat_bits {e : Env} {s s' : Sess} {st : ProofStep} {ok : Bool} (hB : Bits s)
    (hf : s.proof.format = some .varisat) (hst : st.isBits = false)
    (h : writeVarisat e s st = some (s', ok)) : FilesOk s' ∧ (ok = true → Bits s') := by
  have hfs := FilesOk.split.1 hB.files
  have hI := hfs.2 hf
  have hT := hB.cur hf
  unfold writeVarisat at h
  simp only at h
  generalize hc : s.proof.count + delta st = c at h
  generalize hb : nextBits s.invoked c s.proof.hashBits = b at h
  have hlow : ∀ {b' : Nat}, b' = b → ¬ b > 64 → s.invoked = false → b' = 64 := by
    rintro b' rfl h64 hi
    have := hB.low hi
    have hg : grow c s.proof.hashBits = b' := by
      rw [← hb, hi]; rfl
    have := grow_le c s.proof.hashBits
    omega
  have hrange : ¬ b > 64 → BitRange b := fun h64 => by
    refine ⟨?_, by omega, ?_⟩
    · rw [← hb]; exact nextBits_ge _ _ _ hB.range.1 hB.range.2.2
    · rw [← hb, nextBits_mod]; exact hB.range.2.2
  cases hr : rehashed s.invoked c s.proof.hashBits with
  | false =>
    have hbb : b = s.proof.hashBits := by rw [← hb]; exact nextBits_eq hr
    rw [hr] at h
    simp only [Bool.false_eq_true, if_false, Bool.not_true] at h
    split at h
    · cases h
    · rename_i h64
      rw [mapHashes_cut] at h
      unfold putStep put at h
      cases hio : e.io s.ios with
      | true =>
        simp only [hio, if_true, Option.some.injEq, Prod.mk.injEq] at h
        obtain ⟨rfl, rfl⟩ := h
        have hI' := hI.snoc hst
        rw [hT, ← hbb] at hI'
        have hF : FilesOk { s with
            proof := { s.proof with
              count := c, hashBits := b, written := s.proof.written ++ [st.cut b]
              given := s.proof.given ++ [st] }
            ios := s.ios + 1 } := FilesOk.split.2 ⟨hfs.1, fun _ => hI'⟩
        refine ⟨hF, fun _ => ⟨hrange h64, hF, fun _ => ?_, fun hi => hlow rfl h64 hi⟩⟩
        show told 64 (s.proof.written ++ [st.cut b]) = b
        rw [told_snoc (by rw [ProofStep.cut_isBits]; exact hst), hT, hbb]
      | false =>
        simp only [hio, if_false, Bool.false_eq_true, Option.some.injEq, Prod.mk.injEq] at h
        obtain ⟨rfl, rfl⟩ := h
        exact ⟨FilesOk.split.2 ⟨hfs.1, fun _ => hI⟩, fun h => by cases h⟩
  | true =>
    rw [hr] at h
    simp only [if_true] at h
    cases hio : e.io s.ios with
    | false =>
      simp only [put, hio, if_false, Bool.false_eq_true, Bool.not_false, if_true, Option.some.injEq,
        Prod.mk.injEq] at h
      obtain ⟨rfl, rfl⟩ := h
      exact ⟨FilesOk.split.2 ⟨hfs.1, fun _ => hI⟩, fun h => by cases h⟩
    | true =>
      simp only [put, hio, if_true, Bool.not_true, if_false, Bool.false_eq_true] at h
      split at h
      · cases h
      · rename_i h64
        rw [mapHashes_cut] at h
        unfold putStep put at h
        have hI1 := hI.announce (hrange h64)
        have ht1 : told 64 (s.proof.written ++ [.changeHashBits b]) = b := by rw [told_append]; rfl
        have hI2 := hI1.snoc hst
        rw [ht1] at hI2
        cases hio2 : e.io (s.ios + 1) with
        | true =>
          simp only [hio2, if_true, Option.some.injEq, Prod.mk.injEq] at h
          obtain ⟨rfl, rfl⟩ := h
          have hF : FilesOk { s with
              proof := { s.proof with
                count := c, hashBits := b
                written := s.proof.written ++ [.changeHashBits b] ++ [st.cut b]
                given := s.proof.given ++ [st] }
              ios := s.ios + 1 + 1 } := FilesOk.split.2 ⟨hfs.1, fun _ => hI2⟩
          refine ⟨hF, fun _ => ⟨hrange h64, hF, fun _ => ?_, fun hi => hlow rfl h64 hi⟩⟩
          show told 64 (s.proof.written ++ [.changeHashBits b] ++ [st.cut b]) = b
          rw [told_snoc (by rw [ProofStep.cut_isBits]; exact hst), ht1]
        | false =>
          simp only [hio2, if_false, Bool.false_eq_true, Option.some.injEq, Prod.mk.injEq] at h
          obtain ⟨rfl, rfl⟩ := h
          exact ⟨FilesOk.split.2 ⟨hfs.1, fun _ => hI1⟩, fun h => by cases h⟩

theorem handleIo_bits {s : Sess} {ok : Bool} (h1 : FilesOk s) (h2 : ok = true → Bits s) :
    Bits (handleIo s ok) := by
  unfold handleIo
  cases ok with
  | true => exact h2 rfl
  | false =>
    have := Bits.drop h1
    exact ⟨this.range, this.files, this.cur, this.low⟩

theorem handleCheck_bits {s s' : Sess} {r} (h1 : FilesOk s) (h2 : Bits s)
    (h : handleCheck s r = some s') : Bits s' := by
  unfold handleCheck at h
  split at h
  · injection h with h; subst h
    exact ⟨h2.range, FilesOk.split.2 (FilesOk.split.1 h2.files), h2.cur, h2.low⟩
  · injection h with h; subst h
    have := Bits.drop h1
    exact ⟨this.range, this.files, this.cur, this.low⟩
  · cases h

theorem putStep_bits {e : Env} {s : Sess} {st : ProofStep} (hB : Bits s)
    (hf : s.proof.format ≠ some .varisat) : Bits (putStep e s st st).1 := by
  have hfs := FilesOk.split.1 hB.files
  unfold putStep put
  cases hio : e.io s.ios with
  | true =>
    simp only [if_true]
    exact ⟨hB.range, FilesOk.split.2 ⟨hfs.1, fun h => absurd h hf⟩, fun h => absurd h hf, hB.low⟩
  | false =>
    simp only [if_false, Bool.false_eq_true]
    exact ⟨hB.range, FilesOk.split.2 ⟨hfs.1, fun h => absurd h hf⟩, fun h => absurd h hf, hB.low⟩

theorem writeOut_bits {e : Env} {s s' : Sess} {st : ProofStep} {ok : Bool} (hB : Bits s)
    (hst : st.isBits = false) (h : writeOut e s st = some (s', ok)) :
    FilesOk s' ∧ (ok = true → Bits s') := by
  unfold writeOut at h
  split at h
  · exact writeVarisat_bits hB ‹_› hst h
  · rename_i f hnv hf
    split at h
    · injection h with h1
      have := putStep_bits (e := e) (st := st) hB (by rw [hf]; simpa using hnv)
      rw [h1] at this
      exact ⟨this.files, fun _ => this⟩
    · cases h
  · injection h with h1
    injection h1 with h2 h3
    subst h2
    exact ⟨hB.files, fun _ => hB⟩

theorem tell_bits {s s' : Sess} {m} (hB : Bits s) (h : tell s m = some s') : Bits s' := by
  unfold tell at h
  split at h
  · exact handleCheck_bits hB.files hB h
  · injection h with h; subst h; exact hB

theorem addStep_bits {e : Env} {s s' : Sess} {st : ProofStep} (hB : Bits s) (hst : st.isBits = false)
    (h : addStep e s st = some s') : Bits s' := by
  unfold addStep at h
  split at h
  · injection h with h; subst h; exact hB
  · split at h
    · cases h
    · rename_i s1 h1
      obtain ⟨h2, h3⟩ := writeOut_bits hB hst h1
      injection h with h; subst h
      exact handleIo_bits h2 h3
    · rename_i s1 h1
      exact tell_bits ((writeOut_bits hB hst h1).2 rfl) h

theorem Bits.congr {s s' : Sess} (h : Bits s) (h1 : s'.files = s.files) (h2 : s'.proof.format = s.proof.format)
    (h3 : s'.proof.given = s.proof.given) (h4 : s'.proof.written = s.proof.written)
    (h5 : s'.proof.hashBits = s.proof.hashBits) (h6 : s'.invoked = false → s.invoked = false) : Bits s' := by
  refine ⟨by rw [h5]; exact h.range, FilesOk.split.2 ?_, ?_, ?_⟩
  · rw [h1, h2, h3, h4]; exact FilesOk.split.1 h.files
  · rw [h2, h4, h5]; exact h.cur
  · rw [h5]; exact fun hi => h.low (h6 hi)

theorem addClause_bits {e : Env} {s s' : Sess} {c : List Lit} (hB : Bits s)
    (h : addClause e s c = some s') : Bits s' := by
  unfold addClause at h
  split at h
  · exact addStep_bits hB rfl h
  · split at h
    · cases h
    · rename_i s1 h1
      have hk := tell_bits hB h1
      injection h with h
      subst h
      split
      · exact hk.congr rfl rfl rfl rfl rfl id
      · exact hk

theorem flush_bits {e : Env} {s : Sess} (hB : Bits s) : Bits (flush e s) := by
  unfold flush
  split
  · have : Bits { s with ios := s.ios + 1 } := hB.congr rfl rfl rfl rfl rfl id
    exact handleIo_bits this.files fun _ => this
  · exact hB

theorem closeOutput_bits {e : Env} {s s' : Sess} (hB : Bits s) (h : closeOutput e s = some s') : Bits s' := by
  unfold closeOutput at h
  split at h
  · cases h
  · rename_i s1 h1
    have h2 := flush_bits (e := e) (addStep_bits hB rfl h1)
    injection h with h
    subst h
    exact ⟨h2.range, h2.files.archive rfl rfl, (fun h => by cases h), h2.low⟩

theorem solveFinished_bits {e : Env} {s s' : Sess} (hB : Bits s) (h : solveFinished e s = some s') :
    Bits s' := tell_bits (flush_bits (e := e) hB) h

/-- The solver proper announces no hash bits: `ChangeHashBits` is only constructed in
`write_varisat_step`, `proof.rs:238-244`. -/
def Ev.Plain : Ev → Prop
  | .step st => st.isBits = false
  | _ => True

theorem Ev.exec_bits {e : Env} {s s' : Sess} {ev : Ev} (hev : ev.Plain) (hB : Bits s)
    (h : ev.exec e s = some s') : Bits s' := by
  cases ev with
  | step st => exact addStep_bits hB hev h
  | clause c => exact addClause_bits hB h
  | sat v => injection h with h; subst h; exact hB.congr rfl rfl rfl rfl rfl id
  | nonEmpty => injection h with h; subst h; exact hB.congr rfl rfl rfl rfl rfl id

theorem runEvs_bits {e : Env} {evs : List Ev} {s s' : Sess} (hev : ∀ ev ∈ evs, ev.Plain) (hB : Bits s)
    (h : runEvs e evs s = some s') : Bits s' := by
  induction evs generalizing s with
  | nil => injection h with h; subst h; exact hB
  | cons ev evs ih =>
    unfold runEvs at h
    split at h
    · cases h
    · rename_i s1 h1
      exact ih (fun ev hm => hev ev (List.mem_cons_of_mem _ hm))
        (Ev.exec_bits (hev ev List.mem_cons_self) hB h1) h

theorem schedule_bits {e : Env} {steps : List (List Ev)} {s s' : Sess}
    (hev : ∀ ev ∈ steps.flatten, ev.Plain) (hB : Bits s) (h : schedule e steps s = some (some s')) :
    Bits s' := by
  induction steps generalizing s with
  | nil =>
    unfold schedule at h
    split at h
    · injection h with h; injection h with h; subst h; exact hB
    · simp at h
  | cons evs steps ih =>
    unfold schedule at h
    split at h
    · injection h with h; injection h with h; subst h; exact hB
    · simp only at h
      split at h
      · cases h
      · rename_i s1 h1
        rw [List.flatten_cons] at hev
        exact ih (fun ev hm => hev ev (List.mem_append_right _ hm))
          (runEvs_bits (fun ev hm => hev ev (List.mem_append_left _ hm)) hB h1) h

theorem takeError_same (s : Sess) : (takeError s).1.proof = s.proof ∧ (takeError s).1.files = s.files ∧
    (takeError s).1.invoked = s.invoked := by
  unfold takeError; split <;> exact ⟨rfl, rfl, rfl⟩

theorem takeError_bits {s : Sess} (hB : Bits s) : Bits (takeError s).1 := by
  obtain ⟨h1, h2, h3⟩ := takeError_same s
  exact hB.congr h2 (by rw [h1]) (by rw [h1]) (by rw [h1]) (by rw [h1]) (by rw [h3]; exact id)

theorem solve_bits {e : Env} {steps : List (List Ev)} {s s' : Sess} {r : Ret}
    (hev : ∀ ev ∈ steps.flatten, ev.Plain) (hB : Bits s) (h : solve e steps s = some (some (s', r))) :
    Bits s' := by
  unfold solve at h
  simp only at h
  split at h
  · cases h
  · split at h
    · cases h
    · simp at h
    · rename_i s1 h1
      split at h
      · cases h
      · rename_i s2 h2
        have hB1 : Bits { s with invoked := true } :=
          hB.congr rfl rfl rfl rfl rfl (fun h => by cases h)
        have h3 := takeError_bits (solveFinished_bits (schedule_bits hev hB1 h1) h2)
        split at h
        · rename_i h4; rw [h4] at h3
          injection h with h; injection h with h; injection h with h h'; subst h; exact h3
        · rename_i h4; rw [h4] at h3
          injection h with h; injection h with h; injection h with h h'; subst h; exact h3

theorem close_bits {e : Env} {s s' : Sess} {r : Ret} (hB : Bits s) (h : close e s = some (s', r)) :
    Bits s' := by
  unfold close at h
  split at h
  · cases h
  · rename_i s1 h1
    have h3 := takeError_bits (closeOutput_bits hB h1)
    split at h
    · rename_i h4; rw [h4] at h3
      injection h with h; injection h with h h'; subst h; exact h3
    · rename_i h4; rw [h4] at h3
      injection h with h; injection h with h h'; subst h; exact h3

/-- What the rest of the solver does in a call. -/
def Op.evs : Op → List Ev
  | .call evs => evs
  | .solve steps => steps.flatten
  | _ => []

def Op.isSolve : Op → Bool
  | .solve _ => true
  | _ => false

def Op.isWrite : Op → Bool
  | .writeProof _ => true
  | _ => false

theorem Op.exec_bits {e : Env} {s s' : Sess} {op : Op} {r : Ret} (hev : ∀ ev ∈ op.evs, ev.Plain)
    (hw : op.isWrite = true → s.invoked = false) (hB : Bits s)
    (h : op.exec e s = some (some (s', r))) : Bits s' := by
  cases op with
  | writeProof f =>
    unfold Op.exec Out.writeProof at h
    simp only at h
    split at h
    · simp only [Option.map_some, Option.some.injEq, Prod.mk.injEq] at h
      obtain ⟨rfl, -⟩ := h
      exact ⟨hB.range, hB.files.archive rfl rfl, fun _ => (hB.low (hw rfl)).symm, hB.low⟩
    · cases h
  | selfCheck =>
    unfold Op.exec Out.selfCheck at h
    simp only at h
    split at h
    · simp only [Option.map_some, Option.some.injEq, Prod.mk.injEq] at h
      obtain ⟨rfl, -⟩ := h
      exact hB.congr rfl rfl rfl rfl rfl id
    · cases h
  | call evs =>
    unfold Op.exec at h
    obtain ⟨s1, h1, h⟩ := Option.map_eq_some_iff.1 h
    injection h with h; injection h with h h'; subst h
    exact runEvs_bits hev hB h1
  | solve steps => exact solve_bits hev hB h
  | close =>
    unfold Op.exec at h
    obtain ⟨s1, h1, h⟩ := Option.map_eq_some_iff.1 h
    injection h with h
    subst h
    exact close_bits hB h1

/-! ### `solver_invoked` -/

theorem put_invoked (e : Env) (s : Sess) (x : ProofStep) : (put e s x).1.invoked = s.invoked := by
  unfold put; split <;> rfl
theorem putStep_invoked (e : Env) (s : Sess) (x y : ProofStep) : (putStep e s x y).1.invoked = s.invoked := by
  unfold putStep put; cases e.io s.ios <;> rfl
theorem writeVarisat_invoked {e : Env} {s s' : Sess} {st : ProofStep} {ok : Bool}
    (h : writeVarisat e s st = some (s', ok)) : s'.invoked = s.invoked := by
  unfold writeVarisat at h
  simp only at h
  split at h
  · split at h
    · injection h with h; injection h with h _; subst h; exact put_invoked _ _ _
    · split at h
      · cases h
      · injection h with h
        have := congrArg (·.1.invoked) h
        simp only [putStep_invoked, put_invoked] at this
        exact this.symm
  · simp only [Bool.not_true, Bool.false_eq_true, if_false] at h
    split at h
    · cases h
    · injection h with h
      have := congrArg (·.1.invoked) h
      simp only [putStep_invoked] at this
      exact this.symm
theorem handleIo_invoked (s : Sess) (ok : Bool) : (handleIo s ok).invoked = s.invoked := by
  unfold handleIo; split <;> rfl
theorem handleCheck_invoked {s s' : Sess} {r} (h : handleCheck s r = some s') : s'.invoked = s.invoked := by
  unfold handleCheck at h
  split at h
  · injection h with h; subst h; rfl
  · injection h with h; subst h; rfl
  · cases h
theorem tell_invoked {s s' : Sess} {m} (h : tell s m = some s') : s'.invoked = s.invoked := by
  unfold tell at h
  split at h
  · exact handleCheck_invoked h
  · injection h with h; subst h; rfl
theorem writeOut_invoked {e : Env} {s s' : Sess} {st : ProofStep} {ok : Bool}
    (h : writeOut e s st = some (s', ok)) : s'.invoked = s.invoked := by
  unfold writeOut at h
  split at h
  · exact writeVarisat_invoked h
  · split at h
    · injection h with h1
      have := putStep_invoked e s st st
      rw [h1] at this; exact this
    · cases h
  · injection h with h1; injection h1 with h2 h3; subst h2; rfl
theorem addStep_invoked {e : Env} {s s' : Sess} {st : ProofStep} (h : addStep e s st = some s') :
    s'.invoked = s.invoked := by
  unfold addStep at h
  split at h
  · injection h with h; subst h; rfl
  · split at h
    · cases h
    · rename_i s1 h1
      injection h with h; subst h
      rw [handleIo_invoked, writeOut_invoked h1]
    · rename_i s1 h1
      rw [tell_invoked h, writeOut_invoked h1]
theorem addClause_invoked {e : Env} {s s' : Sess} {c : List Lit} (h : addClause e s c = some s') :
    s'.invoked = s.invoked := by
  unfold addClause at h
  split at h
  · exact addStep_invoked h
  · split at h
    · cases h
    · rename_i s1 h1
      have hk := tell_invoked h1
      injection h with h
      subst h
      split <;> exact hk
theorem flush_invoked (e : Env) (s : Sess) : (flush e s).invoked = s.invoked := by
  unfold flush; split
  · rw [handleIo_invoked]
  · rfl
theorem runEvs_invoked {e : Env} {evs : List Ev} {s s' : Sess} (h : runEvs e evs s = some s') :
    s'.invoked = s.invoked := by
  induction evs generalizing s with
  | nil => injection h with h; subst h; rfl
  | cons ev evs ih =>
    unfold runEvs at h
    split at h
    · cases h
    · rename_i s1 h1
      rw [ih h]
      cases ev with
      | step st => exact addStep_invoked h1
      | clause c => exact addClause_invoked h1
      | sat v => injection h1 with h; subst h; rfl
      | nonEmpty => injection h1 with h; subst h; rfl

/-- Only `solve` sets `solver_invoked`. -/
theorem Op.exec_invoked {e : Env} {s s' : Sess} {op : Op} {r : Ret}
    (h : op.exec e s = some (some (s', r))) (ho : op.isSolve = false) : s'.invoked = s.invoked := by
  cases op with
  | writeProof f =>
    unfold Op.exec Out.writeProof at h
    simp only at h
    split at h
    · simp only [Option.map_some, Option.some.injEq, Prod.mk.injEq] at h
      obtain ⟨rfl, -⟩ := h; rfl
    · cases h
  | selfCheck =>
    unfold Op.exec Out.selfCheck at h
    simp only at h
    split at h
    · simp only [Option.map_some, Option.some.injEq, Prod.mk.injEq] at h
      obtain ⟨rfl, -⟩ := h; rfl
    · cases h
  | call evs =>
    unfold Op.exec at h
    obtain ⟨s1, h1, h⟩ := Option.map_eq_some_iff.1 h
    injection h with h; injection h with h h'; subst h
    exact runEvs_invoked h1
  | solve steps => cases ho
  | close =>
    unfold Op.exec at h
    obtain ⟨s1, h1, h⟩ := Option.map_eq_some_iff.1 h
    injection h with h
    subst h
    unfold Out.close at h1
    split at h1
    · cases h1
    · rename_i s2 h2
      unfold closeOutput at h2
      have h4 : s2.invoked = s.invoked := by
        split at h2
        · cases h2
        · rename_i s3 h3
          injection h2 with h2
          rw [← addStep_invoked h3, ← h2]; exact flush_invoked _ _
      have h5 := (takeError_same s2).2.2
      split at h1
      · rename_i h6; rw [h6] at h5
        injection h1 with h1; injection h1 with h1 _; subst h1; rw [← h4]; exact h5
      · rename_i h6; rw [h6] at h5
        injection h1 with h1; injection h1 with h1 _; subst h1; rw [← h4]; exact h5

/-- Histories in which `write_proof` is not called after `solve`. -/
def WriteFirst (h : List (Op × Ret)) : Prop :=
  h.Pairwise fun a b => a.1.isSolve = true → b.1.isWrite = false

/-- Histories in which the solver proper announces no hash bits. -/
def PlainOps (h : List (Op × Ret)) : Prop := ∀ x ∈ h, ∀ ev ∈ x.1.evs, ev.Plain

theorem Ran.bits {e : Env} {s : Sess} {h : List (Op × Ret)} (hr : Ran e {} h s) (hw : WriteFirst h)
    (hp : PlainOps h) : Bits s ∧ ((∀ x ∈ h, x.1.isSolve = false) → s.invoked = false) := by
  generalize h0 : ({} : Sess) = s0 at hr
  induction hr with
  | nil =>
    subst h0
    exact ⟨⟨by decide, by intro f hf; simp [Proof.file] at hf, (fun h => by cases h), fun _ => rfl⟩, fun _ => rfl⟩
  | @snoc s' s'' h r op hr hx ih =>
    subst h0
    obtain ⟨hw1, -, hw2⟩ := List.pairwise_append.1 hw
    obtain ⟨h1, h2⟩ := ih hw1 (fun x hm => hp x (List.mem_append_left _ hm))
    refine ⟨?_, fun hall => ?_⟩
    · refine Op.exec_bits (hp _ (List.mem_append_right _ List.mem_cons_self)) ?_ h1 hx
      intro hop
      refine h2 fun x hm => ?_
      have := hw2 x hm _ List.mem_cons_self
      cases hxs : x.1.isSolve with
      | false => rfl
      | true => rw [this hxs] at hop; cases hop
    · rw [Op.exec_invoked hx (hall _ (List.mem_append_right _ List.mem_cons_self))]
      exact h2 fun x hm => hall x (List.mem_append_left _ hm)

/-! ### Errors -/

/-- An I/O operation has failed or a processor has returned an error. -/
def Trouble (e : Env) (s : Sess) : Prop := (∃ n, n < s.ios ∧ e.io n = false) ∨ 0 < s.rejected

/-- Trouble is remembered. -/
def Noted (e : Env) (s : Sess) : Prop := Trouble e s → s.error.isSome ∨ s.invalid = true

theorem Noted.of_error {e : Env} {s : Sess} (h : s.error.isSome) : Noted e s := fun _ => .inl h

theorem Noted.congr {e : Env} {s s' : Sess} (h : Noted e s) (h1 : s'.ios = s.ios) (h2 : s'.rejected = s.rejected)
    (h3 : s'.error = s.error) (h4 : s'.invalid = s.invalid) : Noted e s' := by
  unfold Noted Trouble at *
  rw [h1, h2, h3, h4]; exact h

theorem Noted.io {e : Env} {s s' : Sess} (h : Noted e s) (hio : e.io s.ios = true) (h1 : s'.ios = s.ios + 1)
    (h2 : s'.rejected = s.rejected) (h3 : s'.error = s.error) (h4 : s'.invalid = s.invalid) : Noted e s' := by
  unfold Noted Trouble at *
  rw [h1, h2, h3, h4]
  rintro (⟨n, hn, hf⟩ | hr)
  · by_cases hs : n = s.ios
    · rw [hs, hio] at hf; cases hf
    · exact h (.inl ⟨n, by omega, hf⟩)
  · exact h (.inr hr)

theorem put_noted {e : Env} {s s' : Sess} {x : ProofStep} (h : put e s x = (s', true)) (hN : Noted e s) :
    Noted e s' := by
  unfold put at h
  split at h
  · rename_i hio
    injection h with h _; subst h
    exact hN.io hio rfl rfl rfl rfl
  · injection h with _ h; cases h

theorem putStep_noted {e : Env} {s s' : Sess} {x y : ProofStep} (h : putStep e s x y = (s', true))
    (hN : Noted e s) : Noted e s' := by
  unfold putStep at h
  cases hp : put e s y with
  | mk s1 ok =>
    rw [hp] at h
    simp only [Prod.mk.injEq] at h
    obtain ⟨h1, rfl⟩ := h
    subst h1
    exact (put_noted hp hN).congr rfl rfl rfl rfl

theorem writeVarisat_noted {e : Env} {s s' : Sess} {st : ProofStep}
    (h : writeVarisat e s st = some (s', true)) (hN : Noted e s) : Noted e s' := by
  unfold writeVarisat at h
  simp only at h
  split at h
  · split at h
    · injection h with h; injection h with _ h; cases h
    · rename_i hok
      split at h
      · cases h
      · injection h with h
        refine putStep_noted h (put_noted (s' := _) (x := _) (Prod.ext rfl ?_) (hN.congr rfl rfl rfl rfl))
        simpa using hok
  · simp only [Bool.not_true, Bool.false_eq_true, if_false] at h
    split at h
    · cases h
    · injection h with h
      exact putStep_noted h (hN.congr rfl rfl rfl rfl)

theorem handleCheck_noted {e : Env} {s s' : Sess} {r} (h : handleCheck s r = some s') (hN : Noted e s) :
    Noted e s' := by
  unfold handleCheck at h
  split at h
  · injection h with h; subst h; exact hN.congr rfl rfl rfl rfl
  · injection h with h; subst h; exact .of_error rfl
  · cases h

theorem tell_noted {e : Env} {s s' : Sess} {m} (h : tell s m = some s') (hN : Noted e s) : Noted e s' := by
  unfold tell at h
  split at h
  · exact handleCheck_noted h hN
  · injection h with h; subst h; exact hN

theorem writeOut_noted {e : Env} {s s' : Sess} {st : ProofStep}
    (h : writeOut e s st = some (s', true)) (hN : Noted e s) : Noted e s' := by
  unfold writeOut at h
  split at h
  · exact writeVarisat_noted h hN
  · split at h
    · injection h with h
      exact putStep_noted h hN
    · cases h
  · injection h with h1; injection h1 with h2 h3; subst h2; exact hN

theorem addStep_noted {e : Env} {s s' : Sess} {st : ProofStep} (h : addStep e s st = some s')
    (hN : Noted e s) : Noted e s' := by
  unfold addStep at h
  split at h
  · injection h with h; subst h; exact hN
  · split at h
    · cases h
    · injection h with h; subst h; exact .of_error rfl
    · rename_i s1 h1
      exact tell_noted h (writeOut_noted h1 hN)

theorem addClause_noted {e : Env} {s s' : Sess} {c : List Lit} (h : addClause e s c = some s')
    (hN : Noted e s) : Noted e s' := by
  unfold addClause at h
  split at h
  · exact addStep_noted h hN
  · split at h
    · cases h
    · rename_i s1 h1
      have hk := tell_noted h1 hN
      injection h with h
      subst h
      split
      · exact hk.congr rfl rfl rfl rfl
      · exact hk

theorem flush_noted {e : Env} {s : Sess} (hN : Noted e s) : Noted e (flush e s) := by
  unfold flush
  split
  · unfold handleIo
    split
    · rename_i hio; exact hN.io hio rfl rfl rfl rfl
    · exact .of_error rfl
  · exact hN

theorem closeOutput_noted {e : Env} {s s' : Sess} (h : closeOutput e s = some s') (hN : Noted e s) :
    Noted e s' := by
  unfold closeOutput at h
  split at h
  · cases h
  · rename_i s1 h1
    injection h with h
    subst h
    exact (flush_noted (addStep_noted h1 hN)).congr rfl rfl rfl rfl

theorem solveFinished_noted {e : Env} {s s' : Sess} (h : solveFinished e s = some s') (hN : Noted e s) :
    Noted e s' := tell_noted h (flush_noted hN)

theorem Ev.exec_noted {e : Env} {s s' : Sess} {ev : Ev} (h : ev.exec e s = some s') (hN : Noted e s) :
    Noted e s' := by
  cases ev with
  | step st => exact addStep_noted h hN
  | clause c => exact addClause_noted h hN
  | sat v => injection h with h; subst h; exact hN.congr rfl rfl rfl rfl
  | nonEmpty => injection h with h; subst h; exact hN.congr rfl rfl rfl rfl

theorem runEvs_noted {e : Env} {evs : List Ev} {s s' : Sess} (h : runEvs e evs s = some s')
    (hN : Noted e s) : Noted e s' := by
  induction evs generalizing s with
  | nil => injection h with h; subst h; exact hN
  | cons ev evs ih =>
    unfold runEvs at h
    split at h
    · cases h
    · exact ih h (Ev.exec_noted ‹_› hN)

theorem schedule_noted {e : Env} {steps : List (List Ev)} {s s' : Sess}
    (h : schedule e steps s = some (some s')) (hN : Noted e s) : Noted e s' := by
  induction steps generalizing s with
  | nil =>
    unfold schedule at h
    split at h
    · injection h with h; injection h with h; subst h; exact hN
    · simp at h
  | cons evs steps ih =>
    unfold schedule at h
    split at h
    · injection h with h; injection h with h; subst h; exact hN
    · simp only at h
      split at h
      · cases h
      · exact ih h (runEvs_noted ‹_› hN)

/-! `state_is_invalid` is only set by `check_for_solver_error`; `solver_error` is never `Interrupted`. -/

theorem takeError_noted {e : Env} {s : Sess} (hN : Noted e s) (hI : s.error ≠ some .interrupted) :
    Noted e (takeError s).1 := by
  unfold takeError
  split
  · rename_i er her
    intro _
    right
    cases er <;> first | rfl | exact absurd her hI
  · exact hN

/-- Everything but `check_for_solver_error` keeps the error, unless it replaces it by another one. -/
structure Held (s s' : Sess) : Prop where
  invalid : s'.invalid = s.invalid
  err : s'.error ≠ some .interrupted
  some_ : s.error.isSome → s'.error.isSome

theorem Held.refl {s : Sess} (h : s.error ≠ some .interrupted) : Held s s := ⟨rfl, h, id⟩
theorem Held.trans {s t u : Sess} (h : Held s t) (h' : Held t u) : Held s u :=
  ⟨h'.invalid.trans h.invalid, h'.err, fun x => h'.some_ (h.some_ x)⟩
theorem Held.congr {s t u : Sess} (h : Held s t) (h1 : u.invalid = t.invalid) (h2 : u.error = t.error) :
    Held s u := ⟨h1.trans h.invalid, by rw [h2]; exact h.err, by rw [h2]; exact h.some_⟩

theorem put_held (e : Env) {s : Sess} (h : s.error ≠ some .interrupted) (x : ProofStep) : Held s (put e s x).1 := by
  unfold put; split <;> exact (Held.refl h).congr rfl rfl
theorem putStep_held (e : Env) {s : Sess} (h : s.error ≠ some .interrupted) (x y : ProofStep) :
    Held s (putStep e s x y).1 := by
  unfold putStep put; cases e.io s.ios <;> exact (Held.refl h).congr rfl rfl
theorem writeVarisat_held {e : Env} {s s' : Sess} {st : ProofStep} {ok : Bool}
    (hs : s.error ≠ some .interrupted) (h : writeVarisat e s st = some (s', ok)) : Held s s' := by
  unfold writeVarisat at h
  simp only at h
  generalize hq : ({ s with proof := { s.proof with
    count := s.proof.count + delta st
    hashBits := nextBits s.invoked (s.proof.count + delta st) s.proof.hashBits } } : Sess) = q at h
  have hqh : Held s q := by rw [← hq]; exact (Held.refl hs).congr rfl rfl
  split at h
  · have hp := hqh.trans (put_held e hqh.err (.changeHashBits (nextBits s.invoked (s.proof.count + delta st) s.proof.hashBits)))
    split at h
    · injection h with h; injection h with h _; subst h; exact hp
    · split at h
      · cases h
      · injection h with h
        have h' := congrArg Prod.fst h
        simp only at h'
        rw [← h']
        exact hp.trans (putStep_held e hp.err st _)
  · simp only [Bool.not_true, Bool.false_eq_true, if_false] at h
    split at h
    · cases h
    · injection h with h
      have h' := congrArg Prod.fst h
      simp only at h'
      rw [← h']
      exact hqh.trans (putStep_held e hqh.err st _)
theorem handleIo_held {s : Sess} (h : s.error ≠ some .interrupted) (ok : Bool) : Held s (handleIo s ok) := by
  unfold handleIo; split
  · exact Held.refl h
  · exact ⟨rfl, by simp, fun _ => rfl⟩
theorem tell_held {s s' : Sess} (hs : s.error ≠ some .interrupted) {m} (h : tell s m = some s') : Held s s' := by
  unfold tell at h
  split at h
  · unfold handleCheck at h
    split at h
    · injection h with h; subst h; exact (Held.refl hs).congr rfl rfl
    · injection h with h; subst h; exact ⟨rfl, by simp, fun _ => rfl⟩
    · cases h
  · injection h with h; subst h; exact Held.refl hs
theorem writeOut_held {e : Env} {s s' : Sess} {st : ProofStep} {ok : Bool}
    (hs : s.error ≠ some .interrupted) (h : writeOut e s st = some (s', ok)) : Held s s' := by
  unfold writeOut at h
  split at h
  · exact writeVarisat_held hs h
  · split at h
    · injection h with h1
      have := putStep_held e hs st st
      rw [h1] at this; exact this
    · cases h
  · injection h with h1; injection h1 with h2 h3; subst h2; exact Held.refl hs
theorem addStep_held {e : Env} {s s' : Sess} {st : ProofStep} (hs : s.error ≠ some .interrupted)
    (h : addStep e s st = some s') : Held s s' := by
  unfold addStep at h
  split at h
  · injection h with h; subst h; exact Held.refl hs
  · split at h
    · cases h
    · rename_i s1 h1
      injection h with h; subst h
      have := writeOut_held hs h1
      exact this.trans (handleIo_held this.err _)
    · rename_i s1 h1
      have := writeOut_held hs h1
      exact this.trans (tell_held this.err h)
theorem addClause_held {e : Env} {s s' : Sess} {c : List Lit} (hs : s.error ≠ some .interrupted)
    (h : addClause e s c = some s') : Held s s' := by
  unfold addClause at h
  split at h
  · exact addStep_held hs h
  · split at h
    · cases h
    · rename_i s1 h1
      have hk := tell_held hs h1
      injection h with h
      subst h
      split
      · exact hk.congr rfl rfl
      · exact hk
theorem flush_held {e : Env} {s : Sess} (hs : s.error ≠ some .interrupted) : Held s (flush e s) := by
  unfold flush; split
  · exact ((Held.refl hs).congr (u := { s with ios := s.ios + 1 }) rfl rfl).trans (handleIo_held (s := { s with ios := s.ios + 1 }) hs _)
  · exact Held.refl hs
theorem Ev.exec_held {e : Env} {s s' : Sess} {ev : Ev} (hs : s.error ≠ some .interrupted)
    (h : ev.exec e s = some s') : Held s s' := by
  cases ev with
  | step st => exact addStep_held hs h
  | clause c => exact addClause_held hs h
  | sat v => injection h with h; subst h; exact (Held.refl hs).congr rfl rfl
  | nonEmpty => injection h with h; subst h; exact (Held.refl hs).congr rfl rfl
theorem runEvs_held {e : Env} {evs : List Ev} {s s' : Sess} (hs : s.error ≠ some .interrupted)
    (h : runEvs e evs s = some s') : Held s s' := by
  induction evs generalizing s with
  | nil => injection h with h; subst h; exact Held.refl hs
  | cons ev evs ih =>
    unfold runEvs at h
    split at h
    · cases h
    · have := Ev.exec_held hs ‹_›
      exact this.trans (ih this.err h)
theorem schedule_held {e : Env} {steps : List (List Ev)} {s s' : Sess} (hs : s.error ≠ some .interrupted)
    (h : schedule e steps s = some (some s')) : Held s s' := by
  induction steps generalizing s with
  | nil =>
    unfold schedule at h
    split at h
    · injection h with h; injection h with h; subst h; exact Held.refl hs
    · simp at h
  | cons evs steps ih =>
    unfold schedule at h
    split at h
    · injection h with h; injection h with h; subst h; exact Held.refl hs
    · simp only at h
      split at h
      · cases h
      · have := runEvs_held hs ‹_›
        exact this.trans (ih this.err h)
theorem solveFinished_held {e : Env} {s s' : Sess} (hs : s.error ≠ some .interrupted)
    (h : solveFinished e s = some s') : Held s s' := by
  have := flush_held (e := e) hs
  exact this.trans (tell_held this.err h)
theorem closeOutput_held {e : Env} {s s' : Sess} (hs : s.error ≠ some .interrupted)
    (h : closeOutput e s = some s') : Held s s' := by
  unfold closeOutput at h
  split at h
  · cases h
  · rename_i s1 h1
    injection h with h
    subst h
    have h2 := addStep_held hs h1
    exact (h2.trans (flush_held h2.err)).congr rfl rfl

/-- What is known between calls: `h` is the history. -/
structure ErrInv (e : Env) (h : List (Op × Ret)) (s : Sess) : Prop where
  noted : Noted e s
  err : s.error ≠ some .interrupted
  /-- the solver is invalid exactly after an error was returned -/
  inv : s.invalid = true ↔ ∃ x ∈ h, ∃ er, x.2 = .err er ∧ er ≠ .interrupted

/-- `solve` in terms of its last state. -/
theorem solve_elim {e : Env} {steps : List (List Ev)} {s s' : Sess} {r : Ret}
    (h : solve e steps s = some (some (s', r))) : s.invalid = false ∧ ∃ s1 s2,
      schedule e steps { s with invoked := true } = some (some s1) ∧ solveFinished e s1 = some s2 ∧
      s' = (takeError s2).1 ∧
      ((∃ er, s2.error = some er ∧ r = .err er) ∨
        s2.error = none ∧ r = match s2.sat with
            | .unknown => .err .interrupted
            | .sat => .answer true
            | .unsat | .unsatUnder => .answer false) := by
  unfold solve at h
  simp only at h
  split at h
  · cases h
  · rename_i hinv
    refine ⟨by simpa using hinv, ?_⟩
    split at h
    · cases h
    · simp at h
    · rename_i s1 h1
      split at h
      · cases h
      · rename_i s2 h2
        refine ⟨s1, s2, h1, h2, ?_⟩
        unfold takeError at h ⊢
        cases her : s2.error with
        | some er =>
          simp only [her] at h ⊢
          injection h with h; injection h with h; injection h with h h'
          exact ⟨h.symm, .inl ⟨er, rfl, h'.symm⟩⟩
        | none =>
          simp only [her] at h ⊢
          injection h with h; injection h with h; injection h with h h'
          exact ⟨h.symm, .inr ⟨trivial, h'.symm⟩⟩

theorem close_elim {e : Env} {s s' : Sess} {r : Ret} (h : close e s = some (s', r)) :
    ∃ s2, closeOutput e s = some s2 ∧ s' = (takeError s2).1 ∧
      ((∃ er, s2.error = some er ∧ r = .err er) ∨ s2.error = none ∧ r = .unit) := by
  unfold close at h
  split at h
  · cases h
  · rename_i s2 h2
    refine ⟨s2, h2, ?_⟩
    unfold takeError at h ⊢
    cases her : s2.error with
    | some er =>
      simp only [her] at h ⊢
      injection h with h; injection h with h h'
      exact ⟨h.symm, .inl ⟨er, rfl, h'.symm⟩⟩
    | none =>
      simp only [her] at h ⊢
      injection h with h; injection h with h h'
      exact ⟨h.symm, .inr ⟨trivial, h'.symm⟩⟩

theorem takeError_err (s : Sess) : (takeError s).1.error = none := by
  unfold takeError; split
  · rfl
  · assumption

theorem takeError_invalid {s : Sess} (h : s.error ≠ some .interrupted) :
    (takeError s).1.invalid = true ↔ s.invalid = true ∨ s.error.isSome := by
  unfold takeError
  cases her : s.error with
  | none => simp
  | some er => cases er <;> simp_all [SErr.recoverable]

theorem ErrInv.step {e : Env} {h : List (Op × Ret)} {s s' : Sess} {op : Op} {r : Ret}
    (hI : ErrInv e h s) (hx : op.exec e s = some (some (s', r))) : ErrInv e (h ++ [(op, r)]) s' := by
  have hunit : ∀ {s' : Sess}, Held s s' → Noted e s' → r = .unit → ErrInv e (h ++ [(op, r)]) s' := by
    intro s' hh hn hr
    refine ⟨hn, hh.err, ?_⟩
    rw [hh.invalid, hI.inv]
    subst hr
    constructor
    · rintro ⟨x, hm, er, h1, h2⟩; exact ⟨x, List.mem_append_left _ hm, er, h1, h2⟩
    · rintro ⟨x, hm, er, h1, h2⟩
      rcases List.mem_append.1 hm with hm | hm
      · exact ⟨x, hm, er, h1, h2⟩
      · rw [List.mem_singleton] at hm; subst hm; cases h1
  have htake : ∀ {s2 : Sess}, Held s s2 → Noted e s2 →
      ((∃ er, s2.error = some er ∧ r = .err er) ∨
        s2.error = none ∧ ∀ er, r = .err er → er = .interrupted) →
      ErrInv e (h ++ [(op, r)]) (takeError s2).1 := by
    intro s2 hh hn hr
    refine ⟨takeError_noted hn hh.err, by rw [takeError_err]; simp, ?_⟩
    rw [takeError_invalid hh.err, hh.invalid, hI.inv]
    constructor
    · rintro (⟨x, hm, er, h1, h2⟩ | hs)
      · exact ⟨x, List.mem_append_left _ hm, er, h1, h2⟩
      · rcases hr with ⟨er, h1, h2⟩ | ⟨h1, -⟩
        · exact ⟨_, List.mem_append_right _ List.mem_cons_self, er, h2, fun h => hh.err (by rw [h1, h])⟩
        · rw [h1] at hs; cases hs
    · rintro ⟨x, hm, er, h1, h2⟩
      rcases List.mem_append.1 hm with hm | hm
      · exact .inl ⟨x, hm, er, h1, h2⟩
      · rw [List.mem_singleton] at hm; subst hm
        rcases hr with ⟨er', h3, -⟩ | ⟨-, h3⟩
        · right; rw [h3]; rfl
        · exact absurd (h3 er h1) h2
  cases op with
  | writeProof f =>
    unfold Op.exec Out.writeProof at hx
    simp only at hx
    split at hx
    · simp only [Option.map_some, Option.some.injEq, Prod.mk.injEq] at hx
      obtain ⟨rfl, hr⟩ := hx
      exact hunit ((Held.refl hI.err).congr rfl rfl) (hI.noted.congr rfl rfl rfl rfl) hr.symm
    · cases hx
  | selfCheck =>
    unfold Op.exec Out.selfCheck at hx
    simp only at hx
    split at hx
    · simp only [Option.map_some, Option.some.injEq, Prod.mk.injEq] at hx
      obtain ⟨rfl, hr⟩ := hx
      exact hunit ((Held.refl hI.err).congr rfl rfl) (hI.noted.congr rfl rfl rfl rfl) hr.symm
    · cases hx
  | call evs =>
    unfold Op.exec at hx
    obtain ⟨s1, h1, hx⟩ := Option.map_eq_some_iff.1 hx
    injection hx with hx; injection hx with hx h'; subst hx
    exact hunit (runEvs_held hI.err h1) (runEvs_noted h1 hI.noted) h'.symm
  | solve steps =>
    obtain ⟨-, s1, s2, h1, h2, rfl, h3⟩ := solve_elim hx
    have hi : Held s { s with invoked := true } := (Held.refl hI.err).congr rfl rfl
    have hn : Noted e { s with invoked := true } := hI.noted.congr rfl rfl rfl rfl
    have hs := hi.trans (schedule_held hi.err h1)
    refine htake (hs.trans (solveFinished_held hs.err h2)) (solveFinished_noted h2 (schedule_noted h1 hn)) ?_
    rcases h3 with h3 | ⟨h3, h4⟩
    · exact .inl h3
    · refine .inr ⟨h3, fun er hr => ?_⟩
      rw [h4] at hr
      split at hr <;> cases hr
      rfl
  | close =>
    unfold Op.exec at hx
    obtain ⟨s1, h1, hx⟩ := Option.map_eq_some_iff.1 hx
    injection hx with hx
    subst hx
    obtain ⟨s2, h2, rfl, h3⟩ := close_elim h1
    refine htake (closeOutput_held hI.err h2) (closeOutput_noted h2 hI.noted) ?_
    rcases h3 with h3 | ⟨h3, h4⟩
    · exact .inl h3
    · exact .inr ⟨h3, fun er hr => by rw [h4] at hr; cases hr⟩

theorem Ran.errInv {e : Env} {s : Sess} {h : List (Op × Ret)} (hr : Ran e {} h s) : ErrInv e h s := by
  generalize h0 : ({} : Sess) = s0 at hr
  induction hr with
  | nil =>
    subst h0
    refine ⟨?_, by simp, by simp⟩
    rintro (⟨n, hn, -⟩ | hn)
    · exact absurd hn (Nat.not_lt_zero n)
    · exact absurd hn (Nat.lt_irrefl 0)
  | snoc op hr hx ih =>
    subst h0
    exact ih.step hx

/-! ### Which error is reported -/

/-- After an error nothing is written or checked any more, and the error tells what has happened. -/
structure Kind (e : Env) (s : Sess) : Prop where
  noted : Noted e s
  err : s.error ≠ some .interrupted
  dead : s.error.isSome → s.proof.format = none ∧ s.proof.checker = none
  io : s.error = some .io → s.invalid = false → s.rejected = 0 ∧ ∃ n, n < s.ios ∧ e.io n = false
  proc : s.error = some .processor → s.invalid = false →
    0 < s.rejected ∧ ∀ n, n < s.ios → e.io n = true

theorem Kind.of_none {e : Env} {s : Sess} (hN : Noted e s) (h : s.error = none) : Kind e s :=
  ⟨hN, by rw [h]; simp, by rw [h]; simp, by rw [h]; simp, by rw [h]; simp⟩

theorem Noted.clean {e : Env} {s : Sess} (hN : Noted e s) (h : s.error = none) (hi : s.invalid = false) :
    s.rejected = 0 ∧ ∀ n, n < s.ios → e.io n = true := by
  have : ¬ Trouble e s := fun ht => by
    rcases hN ht with h1 | h1
    · rw [h] at h1; cases h1
    · rw [hi] at h1; cases h1
  constructor
  · rcases Nat.eq_zero_or_pos s.rejected with h | h
    · exact h
    · exact absurd (.inr h) this
  · intro n hn
    cases hio : e.io n with
    | true => rfl
    | false => exact absurd (.inl ⟨n, hn, hio⟩) this

theorem Kind.congr {e : Env} {s s' : Sess} (h : Kind e s) (h1 : s'.ios = s.ios) (h2 : s'.rejected = s.rejected)
    (h3 : s'.error = s.error) (h4 : s'.invalid = s.invalid)
    (h5 : s'.error.isSome → s.proof.format = none ∧ s.proof.checker = none →
      s'.proof.format = none ∧ s'.proof.checker = none) : Kind e s' := by
  refine ⟨h.noted.congr h1 h2 h3 h4, by rw [h3]; exact h.err, fun hs => h5 hs (h.dead (by rw [← h3]; exact hs)), ?_, ?_⟩
  · rw [h1, h2, h3, h4]; exact h.io
  · rw [h1, h2, h3, h4]; exact h.proc

/-- Writing does not look at the counters and the error. -/
structure Wrote (s s' : Sess) : Prop where
  rejected : s'.rejected = s.rejected
  error : s'.error = s.error
  invalid : s'.invalid = s.invalid

theorem Wrote.trans {s t u : Sess} (h : Wrote s t) (h' : Wrote t u) : Wrote s u :=
  ⟨h'.1.trans h.1, h'.2.trans h.2, h'.3.trans h.3⟩
theorem put_wrote (e : Env) (s : Sess) (x : ProofStep) : Wrote s (put e s x).1 := by
  unfold put; split <;> exact ⟨rfl, rfl, rfl⟩
theorem put_fails {e : Env} {s s' : Sess} {x : ProofStep} (h : put e s x = (s', false)) :
    ∃ n, n < s'.ios ∧ e.io n = false := by
  unfold put at h
  split at h
  · injection h with _ h; cases h
  · rename_i hio
    injection h with h _; subst h
    exact ⟨s.ios, Nat.lt_succ_self _, by simpa using hio⟩
theorem putStep_wrote (e : Env) (s : Sess) (x y : ProofStep) : Wrote s (putStep e s x y).1 := by
  unfold putStep put; cases e.io s.ios <;> exact ⟨rfl, rfl, rfl⟩
theorem putStep_fails {e : Env} {s s' : Sess} {x y : ProofStep} (h : putStep e s x y = (s', false)) :
    ∃ n, n < s'.ios ∧ e.io n = false := by
  unfold putStep at h
  cases hp : put e s y with
  | mk s1 ok =>
    rw [hp] at h
    simp only [Prod.mk.injEq] at h
    obtain ⟨h1, rfl⟩ := h
    subst h1
    exact put_fails hp
theorem writeVarisat_wrote {e : Env} {s s' : Sess} {st : ProofStep} {ok : Bool}
    (h : writeVarisat e s st = some (s', ok)) :
    Wrote s s' ∧ (ok = false → ∃ n, n < s'.ios ∧ e.io n = false) := by
  unfold writeVarisat at h
  simp only at h
  generalize hq : ({ s with proof := { s.proof with
    count := s.proof.count + delta st
    hashBits := nextBits s.invoked (s.proof.count + delta st) s.proof.hashBits } } : Sess) = q at h
  have hqh : Wrote s q := by rw [← hq]; exact ⟨rfl, rfl, rfl⟩
  split at h
  · generalize hp : put e q (.changeHashBits (nextBits s.invoked (s.proof.count + delta st) s.proof.hashBits)) = pr at h
    obtain ⟨s1, ok1⟩ := pr
    have hw : Wrote q s1 := by have := put_wrote e q (.changeHashBits (nextBits s.invoked (s.proof.count + delta st) s.proof.hashBits)); rw [hp] at this; exact this
    simp only at h
    split at h
    · rename_i hok
      have hok : ok1 = false := by simpa using hok
      subst hok
      injection h with h; injection h with h h'; subst h
      exact ⟨hqh.trans hw, fun _ => put_fails hp⟩
    · split at h
      · cases h
      · injection h with h
        refine ⟨?_, ?_⟩
        · have h' := congrArg Prod.fst h
          simp only at h'
          rw [← h']
          exact (hqh.trans hw).trans (putStep_wrote e _ _ _)
        · rintro rfl; exact putStep_fails h
  · simp only [Bool.not_true, Bool.false_eq_true, if_false] at h
    split at h
    · cases h
    · injection h with h
      refine ⟨?_, ?_⟩
      · have h' := congrArg Prod.fst h
        simp only at h'
        rw [← h']
        exact hqh.trans (putStep_wrote e _ _ _)
      · rintro rfl; exact putStep_fails h
theorem writeOut_wrote {e : Env} {s s' : Sess} {st : ProofStep} {ok : Bool}
    (h : writeOut e s st = some (s', ok)) :
    Wrote s s' ∧ (ok = false → ∃ n, n < s'.ios ∧ e.io n = false) := by
  unfold writeOut at h
  split at h
  · exact writeVarisat_wrote h
  · split at h
    · injection h with h1
      have := putStep_wrote e s st st
      rw [h1] at this
      exact ⟨this, by rintro rfl; exact putStep_fails h1⟩
    · cases h
  · injection h with h1; injection h1 with h2 h3; subst h2; subst h3
    exact ⟨⟨rfl, rfl, rfl⟩, fun h => by cases h⟩

theorem tell_kind {e : Env} {s s' : Sess} {m} (h : tell s m = some s') (hK : Kind e s) : Kind e s' := by
  cases hs : s.error with
  | some er =>
    unfold tell at h
    rw [(hK.dead (by rw [hs]; rfl)).2] at h
    injection h with h; subst h; exact hK
  | none =>
    have hN := tell_noted h hK.noted
    unfold tell at h
    split at h
    · unfold handleCheck at h
      split at h
      · injection h with h; subst h; exact .of_none hN hs
      · injection h with h; subst h
        refine ⟨hN, by simp, fun _ => ⟨rfl, rfl⟩, (fun h => by cases h), fun _ hi => ?_⟩
        exact ⟨Nat.succ_pos _, (hK.noted.clean hs hi).2⟩
      · cases h
    · injection h with h; subst h; exact hK

theorem addStep_kind {e : Env} {s s' : Sess} {st : ProofStep} (h : addStep e s st = some s')
    (hK : Kind e s) : Kind e s' := by
  have hN := addStep_noted h hK.noted
  unfold addStep at h
  split at h
  · injection h with h; subst h; exact hK
  · rename_i hs
    have hs : s.error = none := by simpa using hs
    split at h
    · cases h
    · rename_i s1 h1
      obtain ⟨hw, hf⟩ := writeOut_wrote h1
      injection h with h; subst h
      refine ⟨hN, by simp [handleIo], fun _ => ⟨rfl, rfl⟩, fun _ hi => ?_, (fun h => by cases h)⟩
      have hi : s1.invalid = false := hi
      rw [hw.invalid] at hi
      refine ⟨?_, hf rfl⟩
      show s1.rejected = 0
      rw [hw.rejected]; exact (hK.noted.clean hs hi).1
    · rename_i s1 h1
      exact tell_kind h (.of_none (writeOut_noted h1 hK.noted) (by rw [(writeOut_wrote h1).1.error]; exact hs))

theorem addClause_kind {e : Env} {s s' : Sess} {c : List Lit} (h : addClause e s c = some s')
    (hK : Kind e s) : Kind e s' := by
  unfold addClause at h
  split at h
  · exact addStep_kind h hK
  · split at h
    · cases h
    · rename_i s1 h1
      have hk := tell_kind h1 hK
      injection h with h
      subst h
      split
      · exact hk.congr rfl rfl rfl rfl fun _ h => h
      · exact hk

theorem flush_kind {e : Env} {s : Sess} (hK : Kind e s) : Kind e (flush e s) := by
  have hN := flush_noted hK.noted
  cases hs : s.error with
  | some er =>
    unfold flush
    rw [(hK.dead (by rw [hs]; rfl)).1]; exact hK
  | none =>
    unfold flush at hN ⊢
    split
    · rename_i hf
      rw [if_pos hf] at hN
      unfold handleIo at hN ⊢
      split
      · rename_i hio
        rw [if_pos hio] at hN
        exact .of_none hN hs
      · rename_i hio
        rw [if_neg hio] at hN
        refine ⟨hN, by simp, fun _ => ⟨rfl, rfl⟩, fun _ hi => ?_, (fun h => by cases h)⟩
        exact ⟨(hK.noted.clean hs hi).1, s.ios, Nat.lt_succ_self _, by simpa using hio⟩
    · exact hK

theorem Ev.exec_kind {e : Env} {s s' : Sess} {ev : Ev} (h : ev.exec e s = some s') (hK : Kind e s) :
    Kind e s' := by
  cases ev with
  | step st => exact addStep_kind h hK
  | clause c => exact addClause_kind h hK
  | sat v => injection h with h; subst h; exact hK.congr rfl rfl rfl rfl fun _ h => h
  | nonEmpty => injection h with h; subst h; exact hK.congr rfl rfl rfl rfl fun _ h => h

theorem runEvs_kind {e : Env} {evs : List Ev} {s s' : Sess} (h : runEvs e evs s = some s')
    (hK : Kind e s) : Kind e s' := by
  induction evs generalizing s with
  | nil => injection h with h; subst h; exact hK
  | cons ev evs ih =>
    unfold runEvs at h
    split at h
    · cases h
    · exact ih h (Ev.exec_kind ‹_› hK)

theorem schedule_kind {e : Env} {steps : List (List Ev)} {s s' : Sess}
    (h : schedule e steps s = some (some s')) (hK : Kind e s) : Kind e s' := by
  induction steps generalizing s with
  | nil =>
    unfold schedule at h
    split at h
    · injection h with h; injection h with h; subst h; exact hK
    · simp at h
  | cons evs steps ih =>
    unfold schedule at h
    split at h
    · injection h with h; injection h with h; subst h; exact hK
    · simp only at h
      split at h
      · cases h
      · exact ih h (runEvs_kind ‹_› hK)

/-- `write_proof`, `enable_self_checking`, `add_proof_processor`. -/
def Op.isSetup : Op → Bool
  | .writeProof _ | .selfCheck => true
  | _ => false

/-- Histories in which proof output is set up before anything else is done. -/
def SetupFirst (h : List (Op × Ret)) : Prop :=
  h.Pairwise fun a b => b.1.isSetup = true → a.1.isSetup = true

theorem Kind.step {e : Env} {h : List (Op × Ret)} {s s' : Sess} {op : Op} {r : Ret} (hI : ErrInv e h s)
    (hK : Kind e s) (hset : op.isSetup = true → s.error = none)
    (hx : op.exec e s = some (some (s', r))) : Kind e s' := by
  have hE := hI.step hx
  cases op with
  | writeProof f =>
    refine .of_none hE.noted ?_
    unfold Op.exec Out.writeProof at hx
    simp only at hx
    split at hx
    · simp only [Option.map_some, Option.some.injEq, Prod.mk.injEq] at hx
      obtain ⟨rfl, hr⟩ := hx
      exact hset rfl
    · cases hx
  | selfCheck =>
    refine .of_none hE.noted ?_
    unfold Op.exec Out.selfCheck at hx
    simp only at hx
    split at hx
    · simp only [Option.map_some, Option.some.injEq, Prod.mk.injEq] at hx
      obtain ⟨rfl, hr⟩ := hx
      exact hset rfl
    · cases hx
  | call evs =>
    unfold Op.exec at hx
    obtain ⟨s1, h1, hx⟩ := Option.map_eq_some_iff.1 hx
    injection hx with hx; injection hx with hx h'; subst hx
    exact runEvs_kind h1 hK
  | solve steps =>
    obtain ⟨-, s1, s2, h1, h2, rfl, h3⟩ := solve_elim hx
    exact .of_none hE.noted (takeError_err _)
  | close =>
    unfold Op.exec at hx
    obtain ⟨s1, h1, hx⟩ := Option.map_eq_some_iff.1 hx
    injection hx with hx
    subst hx
    obtain ⟨s2, h2, rfl, h3⟩ := close_elim h1
    exact .of_none hE.noted (takeError_err _)

theorem Op.setup_error {e : Env} {s s' : Sess} {op : Op} {r : Ret} (ho : op.isSetup = true)
    (hx : op.exec e s = some (some (s', r))) : s'.error = s.error := by
  cases op with
  | writeProof f =>
    unfold Op.exec Out.writeProof at hx
    simp only at hx
    split at hx
    · simp only [Option.map_some, Option.some.injEq, Prod.mk.injEq] at hx
      obtain ⟨rfl, hr⟩ := hx; rfl
    · cases hx
  | selfCheck =>
    unfold Op.exec Out.selfCheck at hx
    simp only at hx
    split at hx
    · simp only [Option.map_some, Option.some.injEq, Prod.mk.injEq] at hx
      obtain ⟨rfl, hr⟩ := hx; rfl
    · cases hx
  | _ => cases ho

theorem Ran.kind {e : Env} {s : Sess} {h : List (Op × Ret)} (hr : Ran e {} h s) (hs : SetupFirst h) :
    Kind e s ∧ ((∀ x ∈ h, x.1.isSetup = true) → s.error = none) := by
  generalize h0 : ({} : Sess) = s0 at hr
  induction hr with
  | nil => subst h0; exact ⟨.of_none (Ran.errInv .nil).noted rfl, fun _ => rfl⟩
  | @snoc s' s'' h r op hr hx ih =>
    subst h0
    obtain ⟨hs1, -, hs2⟩ := List.pairwise_append.1 hs
    obtain ⟨h1, h2⟩ := ih hs1
    refine ⟨h1.step hr.errInv (fun ho => h2 fun x hm => hs2 x hm _ List.mem_cons_self ho) hx, fun hall => ?_⟩
    rw [Op.setup_error (hall _ (List.mem_append_right _ List.mem_cons_self)) hx]
    exact h2 fun x hm => hall x (List.mem_append_left _ hm)

/-! ### Room for the clauses -/

theorem netClauses_snoc (g : List ProofStep) (st : ProofStep) :
    netClauses (g ++ [st]) = netClauses g + delta st := by
  induction g with
  | nil => cases st <;> simp [netClauses, delta]
  | cons x g ih => cases x <;> simp only [List.cons_append, netClauses, ih] <;> omega

/-- The number of clauses is not underestimated, and there is room for them. -/
def Room (s : Sess) : Prop := s.proof.format = some .varisat →
  netClauses s.proof.given ≤ s.proof.count ∧ netClauses s.proof.given ≤ 2 ^ (s.proof.hashBits / 2)

theorem Room.none {s : Sess} (h : s.proof.format = none) : Room s := fun h' => by rw [h] at h'; cases h'

theorem Room.congr {s s' : Sess} (h : Room s) (h1 : s'.proof.format = s.proof.format)
    (h2 : s'.proof.given = s.proof.given) (h3 : s'.proof.hashBits = s.proof.hashBits)
    (h4 : s.proof.count ≤ s'.proof.count) : Room s' := by
  unfold Room at *
  rw [h1, h2, h3]
  exact fun hf => ⟨Int.le_trans (h hf).1 h4, (h hf).2⟩

theorem putStep_room {e : Env} {s s' : Sess} {x y : ProofStep} (h : putStep e s x y = (s', true)) :
    s'.proof.given = s.proof.given ++ [x] ∧ s'.proof.count = s.proof.count ∧
    s'.proof.hashBits = s.proof.hashBits := by
  unfold putStep put at h
  cases hio : e.io s.ios with
  | true =>
    simp only [hio, if_true, Prod.mk.injEq, and_true] at h
    subst h; exact ⟨rfl, rfl, rfl⟩
  | false => simp [hio] at h

theorem writeVarisat_room {e : Env} {s s' : Sess} {st : ProofStep} (hR : Room s)
    (hf : s.proof.format = some .varisat) (h : writeVarisat e s st = some (s', true)) : Room s' := by
  have hsz := nextBits_size s.invoked (s.proof.count + delta st) s.proof.hashBits
  obtain ⟨hc, -⟩ := hR hf
  have key : ∀ {g : List ProofStep} {c : Int} {b : Nat}, g = s.proof.given ++ [st] → c = s.proof.count + delta st →
      b = nextBits s.invoked (s.proof.count + delta st) s.proof.hashBits →
      netClauses g ≤ c ∧ netClauses g ≤ 2 ^ (b / 2) := by
    rintro g c b rfl rfl rfl
    rw [netClauses_snoc]; omega
  unfold writeVarisat at h
  simp only at h
  split at h
  · split at h
    · injection h with h; injection h with _ h; cases h
    · rename_i hok
      split at h
      · cases h
      · injection h with h
        obtain ⟨h1, h2, h3⟩ := putStep_room h
        intro _
        refine key ?_ ?_ ?_
        · rw [h1]; unfold put; split <;> rfl
        · rw [h2]; unfold put; split <;> rfl
        · rw [h3]; unfold put; split <;> rfl
  · simp only [Bool.not_true, Bool.false_eq_true, if_false] at h
    split at h
    · cases h
    · injection h with h
      obtain ⟨h1, h2, h3⟩ := putStep_room h
      exact fun _ => key h1 h2 h3

theorem handleIo_room {s : Sess} {ok : Bool} (h : ok = true → Room s) : Room (handleIo s ok) := by
  unfold handleIo; cases ok
  · exact .none rfl
  · exact h rfl

theorem tell_room {s s' : Sess} {m} (h : tell s m = some s') (hR : Room s) : Room s' := by
  unfold tell at h
  split at h
  · unfold handleCheck at h
    split at h
    · injection h with h; subst h; exact hR.congr rfl rfl rfl (Int.le_refl _)
    · injection h with h; subst h; exact .none rfl
    · cases h
  · injection h with h; subst h; exact hR

theorem addStep_room {e : Env} {s s' : Sess} {st : ProofStep} (h : addStep e s st = some s')
    (hR : Room s) : Room s' := by
  unfold addStep at h
  split at h
  · injection h with h; subst h; exact hR
  · split at h
    · cases h
    · injection h with h; subst h; exact handleIo_room (fun h => by cases h)
    · rename_i s1 h1
      refine tell_room h ?_
      unfold writeOut at h1
      split at h1
      · exact writeVarisat_room hR ‹_› h1
      · rename_i f hnv hf
        have : s1.proof.format = some f := by
          rw [← hf]
          split at h1
          swap
          · cases h1
          unfold putStep put at h1
          cases hio : e.io s.ios <;> simp only [hio, if_true, Bool.false_eq_true, if_false] at h1 <;>
            (injection h1 with h1; injection h1 with h1 _; subst h1; rfl)
        intro hv
        rw [this] at hv
        exact absurd (Option.some.inj hv) (by simpa using hnv)
      · injection h1 with h1; injection h1 with h1 _; subst h1; exact hR

theorem addClause_room {e : Env} {s s' : Sess} {c : List Lit} (h : addClause e s c = some s')
    (hR : Room s) : Room s' := by
  unfold addClause at h
  split at h
  · exact addStep_room h hR
  · split at h
    · cases h
    · rename_i s1 h1
      have hk := tell_room h1 hR
      injection h with h
      subst h
      split
      · exact hk.congr rfl rfl rfl (Int.le_add_of_nonneg_right (by decide))
      · exact hk

theorem flush_room {e : Env} {s : Sess} (hR : Room s) : Room (flush e s) := by
  unfold flush; split
  · exact handleIo_room fun _ => hR.congr rfl rfl rfl (Int.le_refl _)
  · exact hR

theorem runEvs_room {e : Env} {evs : List Ev} {s s' : Sess} (h : runEvs e evs s = some s')
    (hR : Room s) : Room s' := by
  induction evs generalizing s with
  | nil => injection h with h; subst h; exact hR
  | cons ev evs ih =>
    unfold runEvs at h
    split at h
    · cases h
    · rename_i s1 h1
      refine ih h ?_
      cases ev with
      | step st => exact addStep_room h1 hR
      | clause c => exact addClause_room h1 hR
      | sat v => injection h1 with h; subst h; exact hR.congr rfl rfl rfl (Int.le_refl _)
      | nonEmpty => injection h1 with h; subst h; exact hR.congr rfl rfl rfl (Int.le_refl _)

theorem schedule_room {e : Env} {steps : List (List Ev)} {s s' : Sess}
    (h : schedule e steps s = some (some s')) (hR : Room s) : Room s' := by
  induction steps generalizing s with
  | nil =>
    unfold schedule at h
    split at h
    · injection h with h; injection h with h; subst h; exact hR
    · simp at h
  | cons evs steps ih =>
    unfold schedule at h
    split at h
    · injection h with h; injection h with h; subst h; exact hR
    · simp only at h
      split at h
      · cases h
      · exact ih h (runEvs_room ‹_› hR)

theorem takeError_room {s : Sess} (hR : Room s) : Room (takeError s).1 :=
  hR.congr (by rw [(takeError_same s).1]) (by rw [(takeError_same s).1]) (by rw [(takeError_same s).1])
    (by rw [(takeError_same s).1])

theorem Op.exec_room {e : Env} {s s' : Sess} {op : Op} {r : Ret} (hw : op.isSetup = true → s.proof.count = 0)
    (hR : Room s) (hx : op.exec e s = some (some (s', r))) : Room s' := by
  cases op with
  | writeProof f =>
    unfold Op.exec Out.writeProof at hx
    simp only at hx
    split at hx
    · simp only [Option.map_some, Option.some.injEq, Prod.mk.injEq] at hx
      obtain ⟨rfl, hr⟩ := hx
      intro _
      refine ⟨?_, ?_⟩
      · show (0 : Int) ≤ s.proof.count
        rw [hw rfl]
      · exact Int.le_of_lt (Int.pow_pos (by decide))
    · cases hx
  | selfCheck =>
    unfold Op.exec Out.selfCheck at hx
    simp only at hx
    split at hx
    · simp only [Option.map_some, Option.some.injEq, Prod.mk.injEq] at hx
      obtain ⟨rfl, hr⟩ := hx
      exact hR.congr rfl rfl rfl (Int.le_refl _)
    · cases hx
  | call evs =>
    unfold Op.exec at hx
    obtain ⟨s1, h1, hx⟩ := Option.map_eq_some_iff.1 hx
    injection hx with hx; injection hx with hx h'; subst hx
    exact runEvs_room h1 hR
  | solve steps =>
    obtain ⟨-, s1, s2, h1, h2, rfl, h3⟩ := solve_elim hx
    exact takeError_room (tell_room h2 (flush_room (schedule_room h1 (hR.congr rfl rfl rfl (Int.le_refl _)))))
  | close =>
    unfold Op.exec at hx
    obtain ⟨s1, h1, hx⟩ := Option.map_eq_some_iff.1 hx
    injection hx with hx
    subst hx
    obtain ⟨s2, h2, rfl, h3⟩ := close_elim h1
    refine takeError_room ?_
    unfold closeOutput at h2
    split at h2
    · cases h2
    · injection h2 with h2; subst h2; exact .none rfl

theorem Op.setup_count {e : Env} {s s' : Sess} {op : Op} {r : Ret} (ho : op.isSetup = true)
    (hx : op.exec e s = some (some (s', r))) : s'.proof.count = s.proof.count := by
  cases op with
  | writeProof f =>
    unfold Op.exec Out.writeProof at hx
    simp only at hx
    split at hx
    · simp only [Option.map_some, Option.some.injEq, Prod.mk.injEq] at hx
      obtain ⟨rfl, hr⟩ := hx; rfl
    · cases hx
  | selfCheck =>
    unfold Op.exec Out.selfCheck at hx
    simp only at hx
    split at hx
    · simp only [Option.map_some, Option.some.injEq, Prod.mk.injEq] at hx
      obtain ⟨rfl, hr⟩ := hx; rfl
    · cases hx
  | _ => cases ho

theorem Ran.room {e : Env} {s : Sess} {h : List (Op × Ret)} (hr : Ran e {} h s) (hs : SetupFirst h) :
    Room s ∧ ((∀ x ∈ h, x.1.isSetup = true) → s.proof.count = 0) := by
  generalize h0 : ({} : Sess) = s0 at hr
  induction hr with
  | nil => subst h0; exact ⟨.none rfl, fun _ => rfl⟩
  | @snoc s' s'' h r op hr hx ih =>
    subst h0
    obtain ⟨hs1, -, hs2⟩ := List.pairwise_append.1 hs
    obtain ⟨h1, h2⟩ := ih hs1
    refine ⟨Op.exec_room (fun ho => h2 fun x hm => hs2 x hm _ List.mem_cons_self ho) h1 hx, fun hall => ?_⟩
    rw [Op.setup_count (hall _ (List.mem_append_right _ List.mem_cons_self)) hx]
    exact h2 fun x hm => hall x (List.mem_append_left _ hm)

theorem SetupFirst.writeFirst {h : List (Op × Ret)} (hs : SetupFirst h) : WriteFirst h := by
  refine List.Pairwise.imp ?_ hs
  rintro ⟨a, ra⟩ ⟨b, rb⟩ hab ha
  cases b <;> first | rfl | skip
  have := hab rfl
  cases a with
  | solve _ => cases this
  | _ => cases ha

/-! ### Running histories -/

/-- A history of calls, for tests. -/
def runOps (e : Env) : List Op → Sess → List (Op × Ret) → Option (Sess × List (Op × Ret))
  | [], s, h => some (s, h)
  | op :: ops, s, h =>
    match op.exec e s with
    | some (some (s, r)) => runOps e ops s (h ++ [(op, r)])
    | _ => none

theorem runOps_ran {e : Env} {ops : List Op} {s0 s s' : Sess} {h h' : List (Op × Ret)} (hr : Ran e s0 h s)
    (hx : runOps e ops s h = some (s', h')) : Ran e s0 h' s' := by
  induction ops generalizing s h with
  | nil => injection hx with hx; injection hx with h1 h2; subst h1; subst h2; exact hr
  | cons op ops ih =>
    unfold runOps at hx
    split at hx
    · exact ih (hr.snoc op ‹_›) hx
    · cases hx

theorem peek {e : Env} {ops : List Op} {f : Sess → List (Op × Ret) → Bool}
    (h : (runOps e ops {} []).any (fun x => f x.1 x.2) = true) : ∃ s h, Ran e {} h s ∧ f s h = true := by
  cases hx : runOps e ops {} [] with
  | none => rw [hx] at h; cases h
  | some x => rw [hx] at h; exact ⟨x.1, x.2, runOps_ran .nil hx, h⟩

end Varisat.Out
