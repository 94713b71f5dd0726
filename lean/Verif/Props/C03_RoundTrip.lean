import Verif.Props.C08_DimacsLanguage
import Verif.Proof.Decimal
import Verif.Props.C01_Lit
/-!
# C03: DIMACS write/parse round trip
-/
namespace Varisat.C03
open Spec.Dimacs DimacsParser

theorem lines_clause (c : List Lit) (rest : Bytes) :
    ∃ l, lines (writeDimacsClause c ++ rest) = l :: lines rest ∧
      words l = c.map (fun l => decInt l.toDimacs) ++ [[48]] ∧
      l.head? ≠ some 99 ∧ l.head? ≠ some 112 := by
  have e1 : ascii " " = [32] := by decide
  have e2 : ascii "0\n" = [48, 10] := by decide
  refine ⟨c.flatMap (fun l => decInt l.toDimacs ++ [32]) ++ [48], ?_, ?_, ?_⟩
  · unfold writeDimacsClause lines
    rw [e1, e2]
    have : c.flatMap (fun l => decInt l.toDimacs ++ [32]) ++ [48, 10] ++ rest =
      (c.flatMap (fun l => decInt l.toDimacs ++ [32]) ++ [48]) ++ 10 :: rest := by simp
    rw [this, split_sep ?_ (by rfl)]
    intro b hb
    simp only [List.mem_append, List.mem_flatMap, List.mem_singleton] at hb
    rcases hb with ⟨l, _, hb | rfl⟩ | rfl
    · have := decInt_bytes _ b hb; simp [this]
    · rfl
    · rfl
  · induction c with
    | nil => rfl
    | cons l c ih =>
      have : (l :: c).flatMap (fun l => decInt l.toDimacs ++ [32]) ++ [48] =
        decInt l.toDimacs ++ 32 :: (c.flatMap (fun l => decInt l.toDimacs ++ [32]) ++ [48]) := by simp
      have hb : ∀ b ∈ decInt l.toDimacs, (b == 32) = false := by
        intro b hb; have := decInt_bytes _ b hb; simp [this]
      rw [this, words_sep hb, ih, words_none hb, if_neg (decInt_ne _)]
      rfl
  · cases c with
    | nil => decide
    | cons l c =>
      have hb := decInt_bytes l.toDimacs
      have hn := decInt_ne l.toDimacs
      cases hd : decInt l.toDimacs with
      | nil => exact absurd hd hn
      | cons b bs =>
        have := hb b (by simp [hd])
        simp [hd, this]

theorem readClauses_written (c : List Lit) (cur : List Lit) (ns : List Int) :
    readClauses cur (c.map Lit.toDimacs ++ 0 :: ns) =
      (readClauses [] ns).map ((cur ++ c) :: ·) := by
  induction c generalizing cur with
  | nil => simp [readClauses]
  | cons l c ih =>
    have hne : l.toDimacs ≠ 0 := by unfold Lit.toDimacs; split <;> omega
    simp only [List.map_cons, List.cons_append, readClauses, hne, if_false]
    rw [ih, C01.dimacs_roundtrip']
    simp

/-- Clauses only: what the lines of the written clauses say. -/
theorem clauses_doc (cs : List (List Lit)) (h : ∀ c ∈ cs, ∀ l ∈ c, l.var < maxVarCount) :
    ∃ ns, ((datas (lines (writeDimacsClauses cs))).flatMap words).mapM number? = some ns ∧
      readClauses [] ns = some cs ∧ hdrs (lines (writeDimacsClauses cs)) = [] := by
  induction cs with
  | nil => exact ⟨[], by rfl, by rfl, by rfl⟩
  | cons c cs ih =>
    obtain ⟨ns, h1, h2, h3⟩ := ih (fun c hc => h c (by simp [hc]))
    have e : writeDimacsClauses (c :: cs) = writeDimacsClause c ++ writeDimacsClauses cs := by
      simp [writeDimacsClauses]
    obtain ⟨l, g1, g2, g3, g4⟩ := lines_clause c (writeDimacsClauses cs)
    rw [e, g1]
    refine ⟨c.map Lit.toDimacs ++ 0 :: ns, ?_, ?_, ?_⟩
    · have : datas (l :: lines (writeDimacsClauses cs)) = l :: datas (lines (writeDimacsClauses cs)) := by
        simp [datas, g3, g4]
      rw [this, List.flatMap_cons, g2, List.mapM_append, List.mapM_append]
      have hm : (c.map (fun l => decInt l.toDimacs)).mapM number? = some (c.map Lit.toDimacs) := by
        have hc := h c (by simp)
        clear g1 g2 e this ih h1 h2 h3 h
        induction c with
        | nil => rfl
        | cons x c ih =>
          simp only [List.map_cons, List.mapM_cons]
          rw [number?_decInt _ ((C01.dimacs_range x).1 (hc x (by simp))).2,
            ih (fun l hl => hc l (by simp [hl]))]
          rfl
      have h0 : ([[48]] : List Bytes).mapM number? = some [0] := by decide
      rw [hm, h0, h1]
      simp
    · rw [readClauses_written, h2]; simp
    · simpa [hdrs, g4] using h3

/-- The header line as written. -/
def hdrBytes (v n : Nat) : Bytes := ascii "p cnf " ++ decNat v ++ [32] ++ decNat n

theorem header?_hdrBytes (v n : Nat) (hv : v ≤ 2 ^ 28) (hn : n < 2 ^ 64) :
    header? (hdrBytes v n) = some (v, n) := by
  have e1 : ascii "p cnf " = [112, 32, 99, 110, 102, 32] := by decide
  have e2 : hdrBytes v n = 112 :: 32 :: ([99, 110, 102] ++ 32 :: (decNat v ++ 32 :: decNat n)) := by
    simp [hdrBytes, e1]
  have hs : ∀ m, ∀ b ∈ decNat m, isSpace b = false := fun m b hb =>
    (isDigit_ne (decNat_digits m b hb)).2.2.2.2.2.2.2.2
  have hd : (hdrBytes v n).drop 2 = [99, 110, 102] ++ 32 :: (decNat v ++ 32 :: decNat n) := by
    rw [e2]; rfl
  have ha : ∀ m, ∀ b ∈ decNat m, b < 128 := fun m b hb => (isDigit_ne (decNat_digits m b hb)).2.2.2.2.2.2.2.1
  have hw : splitWs 0 [] ((hdrBytes v n).drop 2) = [[99, 110, 102], decNat v, decNat n] := by
    rw [hd, splitWs_eq _ (by
      intro b hb
      simp only [List.mem_append, List.mem_cons, List.not_mem_nil, or_false] at hb
      rcases hb with (rfl | rfl | rfl) | rfl | hb | rfl | hb <;> first | decide | exact ha _ _ hb), split_sep (by decide) (by decide),
      split_sep (hs v) (by decide), split_none (hs n)]
    simp [decNat_ne]
  have ht : (hdrBytes v n).take 2 = [112, 32] := by rw [e2]; rfl
  rw [header?_bytes]
  unfold bytesHeader?
  rw [hw, if_pos ht]
  simp only [if_true, bytesNumber?_decNat v (by omega), bytesNumber?_decNat n hn, hv]

/-- **C03.** Every formula over supported variables survives writing and parsing: the written bytes
parse, and the result is equal (`PartialEq`) to the original. `ops` is any way of building the
formula; sizes are limited by the address space (`usize` clause count). -/
theorem round_trip (ops : List CnfOp) (f : CnfFormula) (hf : f = ops.foldl CnfFormula.step CnfFormula.new)
    (hv : f.varCount ≤ maxVarCount) (hlen : f.len < 2 ^ 64) :
    ∃ bs g, writeDimacs f = some bs ∧ parse [bs] = .ok g ∧ CnfFormula.eq g f = some true ∧
      g.iter = f.iter ∧ g.varCount = f.varCount := by
  obtain ⟨h1, h2, -, -⟩ := C02.history ops
  have h5 := C02.vars_in_range ops
  rw [← hf] at h1 h2 h5
  generalize C02.clausesOf ops = cs at h1 h2 h5
  rw [maxVarCount_eq] at hv
  have hcs : ∀ c ∈ cs, ∀ l ∈ c, l.var < maxVarCount := by
    intro c hc l hl; have := h5 c hc l hl; rw [maxVarCount_eq]; omega
  obtain ⟨ns, d1, d2, d3⟩ := clauses_doc cs hcs
  let bs := hdrBytes f.varCount f.len ++ 10 :: writeDimacsClauses cs
  have hw : writeDimacs f = some bs := by
    have e1 : ascii " " = [32] := by decide
    have e2 : ascii "\n" = [10] := by decide
    unfold writeDimacs
    rw [h1]
    simp [writeDimacsHeader, bs, hdrBytes, e1, e2]
  have hhd : ∀ b ∈ hdrBytes f.varCount f.len, b ≠ 10 ∧ b ≠ 13 := by
    intro b hb
    have e1 : ascii "p cnf " = [112, 32, 99, 110, 102, 32] := by decide
    have key : ∀ m, ∀ b ∈ decNat m, b ≠ 10 ∧ b ≠ 13 := by
      intro m b hb
      have := isDigit_ne (decNat_digits m b hb)
      exact ⟨this.1, this.2.1⟩
    simp only [hdrBytes, e1, List.mem_append, List.mem_singleton] at hb
    rcases hb with ((hb | hb) | rfl) | hb
    · revert b; decide
    · exact key _ b hb
    · decide
    · exact key _ b hb
  have hhead : (hdrBytes f.varCount f.len).head? = some 112 := by
    have e1 : ascii "p cnf " = [112, 32, 99, 110, 102, 32] := by decide
    simp [hdrBytes, e1]
  have hlines : lines bs = hdrBytes f.varCount f.len :: lines (writeDimacsClauses cs) := by
    apply split_sep
    · intro b hb; have := hhd b hb; simp [this]
    · rfl
  have hdoc : doc? [bs].flatten = some ⟨cs, some (f.varCount, f.len)⟩ := by
    have : [bs].flatten = bs := by simp
    rw [this, C08.doc?_eq, hlines, specRun_header hhead]
    simp only [Option.isSome_none, Bool.false_eq_true, if_false]
    rw [header?_hdrBytes _ _ hv hlen]
    simp only [Option.bind_some, specRun, d1, d2, d3]
    rw [if_pos ⟨h2.symm, h5⟩]
  obtain ⟨g, g1, g2, g3, -⟩ := C08.accepts_all [bs] hdoc
  obtain ⟨g3, g4⟩ := g3 _ _ rfl
  refine ⟨bs, g, hw, g1, ?_, by rw [g2, h1], g3⟩
  unfold CnfFormula.eq
  have g4' : g.clauseRanges.length = f.clauseRanges.length := g4
  rw [if_pos ⟨g3, g4'⟩, C02.eq_go_spec _ _ _ _ cs cs g4' g2 h1]
  simp

/-- Hypotheses are met by a formula with an empty clause, a duplicate literal and unused
variables. -/
example : let f := [CnfOp.addClause [⟨0⟩, ⟨7⟩], .addClause [], .addClause [⟨2⟩, ⟨2⟩],
      .setVarCount 9].foldl CnfFormula.step CnfFormula.new
    f.varCount ≤ maxVarCount ∧ f.len < 2 ^ 64 := by decide

end Varisat.C03
