import Verif.Spec.Drat
import Verif.Proof.CheckerReorder
import Verif.Props.C24_Lrat
import Verif.Props.C01_Lit
/-! What the checker accepts is accepted in DRAT. -/
namespace Varisat.Checker
open Spec.Drat

theorem dimacs_inj {a b : Lit} (h : a.toDimacs = b.toDimacs) : a = b := by
  rw [← C01.dimacs_roundtrip' a, h, C01.dimacs_roundtrip' b]

theorem dimacs_neg (l : Lit) : l.neg.toDimacs = -l.toDimacs := by
  unfold Lit.toDimacs
  rw [Lit.var_neg, Lit.isNeg_neg]
  cases l.isNeg <;> simp

/-- A clause as it is in a file. -/
def ints (c : List Lit) : List Int := c.map Lit.toDimacs

theorem mem_ints {l : Lit} {c : List Lit} : l.toDimacs ∈ ints c ↔ l ∈ c := by
  unfold ints
  rw [List.mem_map]
  exact ⟨fun ⟨m, h, e⟩ => dimacs_inj e ▸ h, fun h => ⟨l, h, rfl⟩⟩

theorem of_mem_ints {x : Int} {c : List Lit} (h : x ∈ ints c) : ∃ l ∈ c, l.toDimacs = x := List.mem_map.1 h

theorem same_iff {c d : List Int} : same c d = true ↔ ∀ x, x ∈ c ↔ x ∈ d := by
  unfold same
  simp only [Bool.and_eq_true, List.all_eq_true, List.contains_iff_mem]
  exact ⟨fun h x => ⟨h.1 x, h.2 x⟩, fun h => ⟨fun x hx => (h x).1 hx, fun x hx => (h x).2 hx⟩⟩

theorem same_ints {c d : List Lit} : same (ints c) (ints d) = true ↔ ∀ l, l ∈ c ↔ l ∈ d := by
  rw [same_iff]
  constructor
  · intro h l
    rw [← mem_ints, ← mem_ints (c := d)]; exact h _
  · intro h x
    constructor
    · intro hx
      obtain ⟨l, hl, rfl⟩ := of_mem_ints hx
      exact mem_ints.2 ((h l).1 hl)
    · intro hx
      obtain ⟨l, hl, rfl⟩ := of_mem_ints hx
      exact mem_ints.2 ((h l).2 hl)

theorem same_canonical (c : List Lit) (d : List Int) : same (ints (copyCanonical c).1) d = same (ints c) d := by
  rw [Bool.eq_iff_iff, same_iff, same_iff]
  have : ∀ x, x ∈ ints (copyCanonical c).1 ↔ x ∈ ints c :=
    same_iff.1 (same_ints.2 fun l => mem_canonical)
  simp only [this]

section
variable {α : Type} {p q : α → Bool}

theorem countP_eraseP_le : ∀ (l : List α), l.countP p ≤ (l.eraseP q).countP p + 1
  | [] => by simp
  | a :: l => by
    rw [List.eraseP_cons]
    cases q a
    · simp only [cond_false]
      rw [List.countP_cons, List.countP_cons]
      have := countP_eraseP_le l
      omega
    · simp only [cond_true]
      rw [List.countP_cons]
      split <;> omega

theorem countP_eraseP_ne (h : ∀ x, q x = true → p x = false) : ∀ (l : List α), (l.eraseP q).countP p = l.countP p
  | [] => by simp
  | a :: l => by
    rw [List.eraseP_cons]
    cases hq : q a
    · simp only [cond_false]
      rw [List.countP_cons, List.countP_cons, countP_eraseP_ne h l]
    · simp only [cond_true]
      rw [List.countP_cons, h a hq]; simp

end

/-- A unit clause, possibly with its literal repeated. -/
def HasUnit (D : List (List Int)) (l : Lit) : Prop := ∃ d ∈ D, l.toDimacs ∈ d ∧ ∀ m ∈ d, m = l.toDimacs

/-- All the checker knows is in the clauses `D`. -/
structure Cover (D : List (List Int)) (V : View) : Prop where
  unit : ∀ l, V.True l → HasUnit D l
  cnt : ∀ k, LitsOk k → V.cnt false k + V.cnt true k ≤ D.countP (same (ints k))
  unsat : V.unsat = true → [] ∈ D ∨ ∃ l, HasUnit D l ∧ HasUnit D l.neg

variable {D : List (List Int)} {V W : View}

theorem Cover.nil : Cover [] {} := ⟨fun l h => (by cases h), fun k _ => Nat.le_refl _, fun h => by cases h⟩

theorem HasUnit.cons {l : Lit} {c : List Int} (h : HasUnit D l) : HasUnit (c :: D) l := by
  obtain ⟨d, h1, h2⟩ := h
  exact ⟨d, by simp [h1], h2⟩

theorem Cover.cons (h : Cover D V) (c : List Int) : Cover (c :: D) V :=
  ⟨fun l hl => (h.unit l hl).cons, fun k hk => Nat.le_trans (h.cnt k hk) (by rw [List.countP_cons]; exact Nat.le_add_right _ _),
    fun hu => (h.unsat hu).imp (by simp_all) (fun ⟨l, h1, h2⟩ => ⟨l, h1.cons, h2.cons⟩)⟩

theorem Cover.congr (h : Cover D V) (h1 : W.cnt = V.cnt) (h2 : W.unsat = V.unsat) (h3 : ∀ l, W.True l → V.True l) : Cover D W :=
  ⟨fun l hl => h.unit l (h3 l hl), by rw [h1]; exact h.cnt, by rw [h2]; exact h.unsat⟩

/-- Storing a clause. -/
theorem Cover.store (h : Cover D V) (red : Bool) {c : List Lit} (hn : ∀ l ∈ c, l.neg ∉ c) :
    Cover (ints c :: D) (V.store red (copyCanonical c).1) := by
  have hmem : ∀ l, l ∈ (copyCanonical c).1 ↔ l ∈ c := fun l => mem_canonical
  have hc := h.cons (ints c)
  have hs := canonical_ssorted c
  generalize hk : (copyCanonical c).1 = k at *
  unfold View.store
  match k, hmem, hs with
  | [], hmem, _ =>
    have : c = [] := List.eq_nil_iff_forall_not_mem.2 fun l hl => by have := (hmem l).2 hl; cases this
    subst this
    exact ⟨hc.unit, hc.cnt, fun _ => .inl (by simp [ints])⟩
  | [l], hmem, _ =>
    have hl : HasUnit (ints c :: D) l := by
      refine ⟨ints c, by simp, mem_ints.2 ((hmem l).1 (by simp)), fun m hm => ?_⟩
      obtain ⟨y, hy, rfl⟩ := of_mem_ints hm
      rw [List.mem_singleton.1 ((hmem y).2 hy)]
    simp only
    split
    · rename_i b hb
      split
      · exact hc
      · rename_i hne
        refine ⟨hc.unit, hc.cnt, fun _ => .inr ⟨l, hl, hc.unit l.neg ?_⟩⟩
        unfold View.True
        rw [Lit.var_neg, hb, Lit.isNeg_neg]
        cases b <;> cases hq : l.isNeg <;> simp [hq] at hne ⊢
    · refine ⟨fun m hm => ?_, hc.cnt, hc.unsat⟩
      unfold View.True at hm
      simp only [upd] at hm
      split at hm
      · rename_i hv
        have : m = l := by
          refine Lit.ext_var_neg hv ?_
          have := Option.some.inj hm
          cases h1 : l.isNeg <;> cases h2 : m.isNeg <;> simp_all
        rw [this]; exact hl
      · exact hc.unit m hm
  | a :: b :: k, hmem, hs =>
    refine ⟨hc.unit, fun k' hk' => ?_, hc.unsat⟩
    have := h.cnt k' hk'
    simp only
    rw [List.countP_cons]
    by_cases he : a :: b :: k = k'
    · subst he
      have hsame : same (ints (a :: b :: k)) (ints c) = true := same_ints.2 hmem
      rw [if_pos hsame]
      cases red <;> simp <;> omega
    · rw [if_neg (fun q => he q.1), if_neg (fun q => he q.1)]
      omega

/-- A clause that is held. -/
theorem Cover.has (h : Cover D V) {k : List Lit} (hk : V.Has k) : ∃ d ∈ D, same (ints k) d = true := by
  obtain ⟨h1, red, h2⟩ := hk
  have := h.cnt k h1
  have hpos : 0 < D.countP (same (ints k)) := by cases red <;> omega
  rw [List.countP_pos_iff] at hpos
  exact hpos

theorem Cover.forced (h : Cover D V) {A : Int → Prop} {l : Lit} (hl : V.True l) : Forced D A l.toDimacs := by
  obtain ⟨d, h1, h2, h3⟩ := h.unit l hl
  exact .unit h1 h2 fun m hm hne => absurd (h3 m hm) hne

/-- A refutation by the hints. -/
theorem conflict_of_chain {A : Int → Prop} : ∀ {cls : List (List Lit)} {known : Lit → Prop}, UnitChain Lit.neg known cls →
    (∀ k ∈ cls, ∃ d ∈ D, same (ints k) d = true) → (∀ l, known l → Forced D A l.toDimacs) → ∃ d ∈ D, ∀ m ∈ d, Forced D A (-m)
  | [], _, h, _, _ => absurd h id
  | [c], known, h, hc, hk => by
    obtain ⟨d, h1, h2⟩ := hc c (by simp)
    refine ⟨d, h1, fun m hm => ?_⟩
    obtain ⟨l, hl, rfl⟩ := of_mem_ints ((same_iff.1 h2 m).2 hm)
    rw [← dimacs_neg]
    exact hk _ (h l hl)
  | c :: c' :: cls, known, h, hc, hk => by
    obtain ⟨l, hl, h1, h2⟩ := h
    refine conflict_of_chain h2 (fun k hk' => hc k (by simp [hk'])) fun x hx => ?_
    rcases hx with rfl | hx
    · obtain ⟨d, h3, h4⟩ := hc c (by simp)
      refine .unit h3 ((same_iff.1 h4 _).1 (mem_ints.2 hl)) fun m hm hne => ?_
      obtain ⟨y, hy, rfl⟩ := of_mem_ints ((same_iff.1 h4 m).2 hm)
      rw [← dimacs_neg]
      rcases h1 y hy with rfl | q
      · exact absurd rfl hne
      · exact hk _ q
    · exact hk x hx

/-- Unit clauses. -/
theorem Cover.units : ∀ {us : List (Lit × Nat)} {D : List (List Int)} {V : View}, Cover D V → V.AccUnits us →
    Valid D (us.map fun u => (true, [u.1.toDimacs])) ∧
      Cover (after D (us.map fun u => (true, [u.1.toDimacs]))) (us.foldl (fun V u => V.store false [u.1]) V)
  | [], D, V, h, _ => ⟨trivial, h⟩
  | (l, hh) :: us, D, V, h, hu => by
    obtain ⟨⟨k, -, -, h2, h3⟩, h4⟩ := hu
    have e : (copyCanonical [l]).1 = [l] := canonical_of_ssorted (List.pairwise_singleton _ _)
    have hs : Cover ([l.toDimacs] :: D) (V.store false [l]) := by
      have := h.store false (c := [l]) (by
        intro m hm
        rw [List.mem_singleton.1 hm, List.mem_singleton]
        exact Lit.neg_ne l)
      rw [e] at this; exact this
    obtain ⟨i1, i2⟩ := hs.units h4
    refine ⟨⟨?_, i1⟩, i2⟩
    obtain ⟨d, h5, h6⟩ := h.has h2
    show Spec.Drat.Rup D [l.toDimacs]
    refine ⟨d, h5, fun m hm => ?_⟩
    obtain ⟨y, hy, rfl⟩ := of_mem_ints ((same_iff.1 h6 m).2 hm)
    rw [← dimacs_neg]
    rcases h3 y hy with rfl | q
    · refine .start ?_
      rw [dimacs_neg]; simp
    · exact h.forced q

/-- A step of a proof: its lines are accepted. -/
theorem Cover.step (h : Cover D V) {st : ProofStep} (ha : V.Acc st) (hn : ∀ c, st ≠ .addClause c) :
    Valid D (dratEvents st) ∧ Cover (after D (dratEvents st)) (V.step st) := by
  cases st with
  | addClause c => exact absurd rfl (hn c)
  | atClause red c hs =>
    obtain ⟨h1, h2⟩ := ha
    have hr : Spec.Drat.Rup D (ints c) := by
      rcases h2 with ⟨l, hl, ht⟩ | ⟨cls, -, h3, h4⟩
      · obtain ⟨d, k1, k2, k3⟩ := h.unit l ht
        refine ⟨d, k1, fun m hm => ?_⟩
        rw [k3 m hm]
        refine .start ?_
        rw [Int.neg_neg]; exact mem_ints.2 hl
      · refine conflict_of_chain h4 (fun k hk => h.has (h3 k hk).2) fun l hl => ?_
        rcases hl with hl | hl
        · refine .start ?_
          rw [← dimacs_neg]; exact mem_ints.2 hl
        · exact h.forced hl
    refine ⟨⟨hr, trivial⟩, ?_⟩
    show Cover (ints c :: D) _
    have k := h.store red h1
    unfold View.step
    cases red with
    | true => exact k
    | false => exact k.congr rfl rfl fun _ hl => hl
  | unitClauses us => exact h.units ha
  | deleteClause c p =>
    obtain ⟨h1, h2, h3, -⟩ := ha
    have hok : LitsOk (copyCanonical c).1 := ⟨canonical_ssorted c, h2, fun l hl hl' => h1 l (mem_canonical.1 hl) (mem_canonical.1 hl')⟩
    have hhas := h.has ⟨hok, _, h3⟩
    simp only [same_canonical] at hhas
    have hkeep : ∀ {d : List Int} {x : Int}, d ∈ D → (∀ m ∈ d, m = x) → d ∈ D.eraseP (same (ints c)) := by
      intro d x hd hx
      refine (List.mem_eraseP_of_neg ?_).2 hd
      intro hs
      have hs := same_iff.1 hs
      have hall : ∀ a ∈ (copyCanonical c).1, a.toDimacs = x := fun a ha => hx _ ((hs _).1 (mem_ints.2 (mem_canonical.1 ha)))
      have hso := canonical_ssorted c
      generalize (copyCanonical c).1 = k at *
      match k, h2, hso with
      | a :: b :: k, _, hso =>
        have : a = b := dimacs_inj ((hall a (by simp)).trans (hall b (by simp)).symm)
        have h5 := (List.pairwise_cons.1 hso).1 b (by simp)
        rw [this] at h5
        exact Nat.lt_irrefl _ h5
    refine ⟨⟨hhas, trivial⟩, ?_⟩
    show Cover (D.eraseP (same (ints c))) _
    have hunit : ∀ l, HasUnit D l → HasUnit (D.eraseP (same (ints c))) l := by
      rintro l ⟨d, k1, k2, k3⟩
      exact ⟨d, hkeep k1 k3, k2, k3⟩
    refine ⟨fun l hl => hunit l (h.unit l hl), fun k hk => ?_, fun hu => ?_⟩
    · have hle := h.cnt k hk
      simp only [View.step]
      by_cases he : (copyCanonical c).1 = k
      · subst he
        have := countP_eraseP_le (p := same (ints (copyCanonical c).1)) (q := same (ints c)) D
        generalize hb : decide (p = DeleteProof.redundant) = b at *
        cases b <;> simp <;> omega
      · rw [countP_eraseP_ne (fun x hx => ?_)]
        · exact Nat.le_trans (Nat.add_le_add (Nat.sub_le _ _) (Nat.sub_le _ _)) hle
        · rw [Bool.eq_false_iff]
          intro hx'
          refine he (ssorted_ext (canonical_ssorted c) hk.sorted fun l => ?_)
          rw [mem_canonical, ← mem_ints, ← mem_ints (c := k), same_iff.1 hx, same_iff.1 hx']
    · rcases h.unsat hu with q | ⟨l, q1, q2⟩
      · exact .inl (hkeep (x := 0) q (by simp))
      · exact .inr ⟨l, hunit _ q1, hunit _ q2⟩
  | deleteVar v =>
    refine ⟨trivial, h.congr rfl rfl fun l hl => ?_⟩
    unfold View.True at hl ⊢
    simp only [View.step, upd] at hl
    split at hl
    · cases hl
    · exact hl
  | userVarName g u =>
    refine ⟨trivial, ?_⟩
    cases u with
    | some u => exact h.congr rfl rfl fun _ hl => hl
    | none =>
      show Cover D (V.step _)
      unfold View.step
      simp only
      split <;> exact h.congr rfl rfl fun _ hl => hl
  | solverVarName | changeSamplingMode | model | assumptions | failedAssumptions | changeHashBits | end_ =>
    exact ⟨trivial, h.congr rfl rfl fun _ hl => hl⟩

theorem valid_append : ∀ {L M : List (Bool × List Int)} {D : List (List Int)}, Valid D L → Valid (after D L) M → Valid D (L ++ M)
  | [], _, _, _, h => h
  | _ :: _, _, _, h, h' => ⟨h.1, valid_append h.2 h'⟩

/-- The steps of a proof. -/
theorem Cover.steps {t : Bool} : ∀ {L : List ProofStep} {D : List (List Int)} {V : View}, Cover D V → V.AccAll t L →
    (∀ st ∈ L, ∀ c, st ≠ .addClause c) → Valid D (L.flatMap dratEvents) ∧ Cover (after D (L.flatMap dratEvents)) (L.foldl View.step V)
  | [], _, _, h, _, _ => ⟨trivial, h⟩
  | st :: L, D, V, h, ha, hn => by
    obtain ⟨h1, h2⟩ := h.step ha.1.1 (hn st (by simp))
    obtain ⟨h3, h4⟩ := Cover.steps h2 ha.2 fun x hx => hn x (by simp [hx])
    rw [List.flatMap_cons]
    refine ⟨valid_append h1 h3, ?_⟩
    unfold after at h4 ⊢
    rw [List.foldl_append]; exact h4

theorem Cover.perm {E : List (List Int)} (h : Cover D V) (hp : D.Perm E) : Cover E V := by
  have hu : ∀ l, HasUnit D l → HasUnit E l := fun l ⟨d, h1, h2⟩ => ⟨d, hp.mem_iff.1 h1, h2⟩
  exact ⟨fun l hl => hu l (h.unit l hl), fun k hk => by rw [← hp.countP_eq]; exact h.cnt k hk,
    fun q => (h.unsat q).imp (fun q => hp.mem_iff.1 q) fun ⟨l, h1, h2⟩ => ⟨l, hu _ h1, hu _ h2⟩⟩

/-- The clauses of a formula. -/
theorem Cover.adds : ∀ {C : List (List Lit)} {D : List (List Int)} {V : View}, Cover D V →
    Cover (D ++ C.map ints) ((C.map ProofStep.addClause).foldl View.step V)
  | [], D, V, h => by simpa using h
  | c :: C, D, V, h => by
    have h1 : Cover (D ++ [ints c]) (V.step (.addClause c)) := by
      refine Cover.perm (D := ints c :: D) ?_ (List.perm_append_comm (l₁ := [ints c]))
      unfold View.step
      simp only
      split
      · exact h.cons _
      · rename_i hq
        push Not at hq
        have hq := canonical_notaut (c := c) (by simpa using hq.2)
        exact h.store false fun l hl hl' => hq l (mem_canonical.2 hl) (mem_canonical.2 hl')
    have := h1.adds (C := C)
    simpa using this

/-- A contradiction that the checker has found. -/
theorem Cover.rup (h : Cover D V) (hu : V.unsat = true) : Spec.Drat.Rup D [] := by
  rcases h.unsat hu with q | ⟨l, ⟨d, h1, h2, h3⟩, ⟨e, h4, h5, h6⟩⟩
  · exact ⟨[], q, fun m hm => by cases hm⟩
  · refine ⟨e, h4, fun m hm => ?_⟩
    rw [h6 m hm, dimacs_neg, Int.neg_neg]
    exact .unit h1 h2 fun m hm hne => absurd (h3 m hm) hne

/-- Consequences of satisfied clauses. -/
theorem forced_holds {τ : Nat → Prop} {A : Int → Prop} {l : Int} (hf : Forced D A l) (hs : Spec.Drat.Sat τ D) (h0 : ∀ c ∈ D, (0 : Int) ∉ c)
    (hA : ∀ x, A x → Spec.Drat.holds τ x) : Spec.Drat.holds τ l := by
  induction hf with
  | start h => exact hA _ h
  | @unit c l hc hl _ ih =>
    obtain ⟨x, hx, hx'⟩ := hs c hc
    by_cases he : x = l
    · rw [← he]; exact hx'
    · exact absurd hx' ((holds_neg (fun h => h0 c hc (h ▸ hx))).1 (ih x hx he))
where
  holds_neg {τ : Nat → Prop} {x : Int} (hx : x ≠ 0) : Spec.Drat.holds τ (-x) ↔ ¬ Spec.Drat.holds τ x := by
    unfold Spec.Drat.holds
    rw [Int.natAbs_neg]
    by_cases h : 0 < x
    · rw [if_pos h, if_neg (by omega)]
    · rw [if_neg h, if_pos (by omega)]
      exact not_not.symm

theorem rup_holds {τ : Nat → Prop} {c : List Int} (hr : Spec.Drat.Rup D c) (hs : Spec.Drat.Sat τ D) (h0 : ∀ c ∈ D, (0 : Int) ∉ c)
    (hc : (0 : Int) ∉ c) : ∃ x ∈ c, Spec.Drat.holds τ x := by
  by_contra hno
  push Not at hno
  obtain ⟨d, hd, hf⟩ := hr
  obtain ⟨x, hx, hx'⟩ := hs d hd
  have hA : ∀ y : Int, -y ∈ c → Spec.Drat.holds τ y := by
    intro y hy
    have hne : -y ≠ 0 := fun h => hc (h ▸ hy)
    have := (forced_holds.holds_neg (τ := τ) hne).2 (hno _ hy)
    rwa [Int.neg_neg] at this
  exact (forced_holds.holds_neg (fun h => h0 d hd (h ▸ hx))).1 (forced_holds (hf x hx) hs h0 hA) hx'

/-- The lines of a valid proof keep all models. -/
theorem valid_sat {τ : Nat → Prop} : ∀ {L : List (Bool × List Int)} {D : List (List Int)}, Valid D L → Spec.Drat.Sat τ D → (∀ c ∈ D, (0 : Int) ∉ c) →
    (∀ x ∈ L, (0 : Int) ∉ x.2) → Spec.Drat.Sat τ (after D L) ∧ ∀ c ∈ after D L, (0 : Int) ∉ c
  | [], _, _, hs, h0, _ => ⟨hs, h0⟩
  | (b, c) :: L, D, hv, hs, h0, hL => by
    have hc : (0 : Int) ∉ c := hL (b, c) (by simp)
    refine valid_sat (L := L) (D := Spec.Drat.step D (b, c)) hv.2 ?_ ?_ fun x hx => hL x (by simp [hx])
    · cases b with
      | true =>
        intro d hd
        rcases List.mem_cons.1 (show d ∈ c :: D from hd) with rfl | hd
        · exact rup_holds hv.1 hs h0 hc
        · exact hs d hd
      | false => exact fun d hd => hs d (List.mem_of_mem_eraseP hd)
    · cases b with
      | true =>
        intro d hd
        rcases List.mem_cons.1 (show d ∈ c :: D from hd) with rfl | hd
        · exact hc
        · exact h0 d hd
      | false => exact fun d hd => h0 d (List.mem_of_mem_eraseP hd)

end Varisat.Checker
