import Verif.Model.Dimacs
import Verif.Spec.Dimacs
import Verif.Props.C02_Cnf
import Verif.Proof.Lit
/-!
# Lemmas about the DIMACS parser
-/
namespace Varisat.DimacsParser
open Varisat.Spec.Dimacs

theorem parseLoop_append (p : DimacsParser) (xs ys : Bytes) :
    p.parseLoop (xs ++ ys) =
      match p.parseLoop xs with
      | (p, some e) => (p, some e)
      | (p, none) => p.parseLoop ys := by
  induction xs generalizing p with
  | nil => simp [parseLoop]
  | cons x xs ih =>
    simp only [List.cons_append, parseLoop]
    rcases p.parseByte x with ⟨q, _ | e⟩
    · exact ih q
    · rfl

theorem loop_append_ok {p q : DimacsParser} {xs ys : Bytes} (h : p.parseLoop xs = (q, none)) :
    p.parseLoop (xs ++ ys) = q.parseLoop ys := by
  rw [parseLoop_append, h]

theorem loop_append_err {p q : DimacsParser} {e : ParserError} {xs ys : Bytes}
    (h : p.parseLoop xs = (q, some e)) : p.parseLoop (xs ++ ys) = (q, some e) := by
  rw [parseLoop_append, h]

theorem finishLiteral_error (p : DimacsParser) : p.finishLiteral.error = p.error := by
  unfold finishLiteral; grind

theorem parseHeaderLine_error_iff (p : DimacsParser) (h : p.error = false) :
    p.parseHeaderLine.1.error = p.parseHeaderLine.2.isSome := by
  unfold parseHeaderLine invalidHeader
  repeat' split
  all_goals simp [h]

/-- The `error` flag is set exactly when an error is returned. -/
theorem parseByte_error_iff (p : DimacsParser) (b : UInt8) (h : p.error = false) :
    (p.parseByte b).1.error = (p.parseByte b).2.isSome := by
  have hf := finishLiteral_error p
  unfold parseByte
  have key : ∀ q : DimacsParser, q.error = false →
      (match q.parseHeaderLine with
        | (p, some e) => (p, some e)
        | (p, none) => ({ p with inCommentOrHeader := false, startOfLine := true }, none) :
        DimacsParser × Option ParserError).1.error =
      (match q.parseHeaderLine with
        | (p, some e) => (p, some e)
        | (p, none) => ({ p with inCommentOrHeader := false, startOfLine := true }, none) :
        DimacsParser × Option ParserError).2.isSome := by
    intro q hq
    have := parseHeaderLine_error_iff q hq
    revert this
    rcases q.parseHeaderLine with ⟨r, _ | e⟩ <;> simp
  by_cases hb : b = 10
  · simp only [hb, if_true]
    split
    · split
      · exact key _ (by simpa using h)
      · simpa using h
    · split
      · split <;> simpa using h
      · simp [finishLiteral_error, h]; grind
  · simp only [hb, if_false]
    split
    · split
      · exact key _ (by simpa using h)
      · simpa using h
    · split
      · split <;> simpa using h
      · simp [finishLiteral_error, h]; grind

theorem parseLoop_error_iff (p : DimacsParser) (bs : Bytes) (h : p.error = false) :
    (p.parseLoop bs).1.error = (p.parseLoop bs).2.isSome := by
  induction bs generalizing p with
  | nil => simp [parseLoop, h]
  | cons b bs ih =>
    have := parseByte_error_iff p b h
    unfold parseLoop
    rcases hq : p.parseByte b with ⟨q, _ | e⟩
    · rw [hq] at this; exact ih q (by simpa using this)
    · rw [hq] at this; simpa using this

/-- Once an error was returned, all later chunks return `PreviousError`. -/
theorem parseChunk_error {p : DimacsParser} (h : p.error = true) (bs : Bytes) :
    p.parseChunk bs = (p, some .previousError) := by simp [parseChunk, h]

theorem parseChunk_ok {p : DimacsParser} (h : p.error = false) (bs : Bytes) :
    p.parseChunk bs = p.parseLoop bs := by simp [parseChunk, h]

/-! ### Byte classes -/

theorem toNat_ne {b : UInt8} {n : Nat} (c : UInt8) (hc : c.toNat = n) (h : b.toNat ≠ n) : b ≠ c := by
  intro hb; subst hb; exact h hc

/-- Digit step. -/
theorem parseByte_digit (p : DimacsParser) (b : UInt8) (hc : p.inCommentOrHeader = false)
    (hb : isDigit b = true) :
    p.parseByte b =
      if p.partialLit * 10 + (b.toNat - 48) ≤ 2 ^ 28 then
        ({ p with inLit := true, partialLit := p.partialLit * 10 + (b.toNat - 48),
                  startOfLine := false }, none)
      else ({ p with inLit := true, error := true },
        some (.literalTooLarge p.lineNumber p.partialLit (b.toNat - 48))) := by
  simp only [isDigit, Bool.decide_and, Bool.and_eq_true, decide_eq_true_eq] at hb
  have h10 : b ≠ 10 := toNat_ne (n := 10) 10 rfl (by omega)
  unfold parseByte
  simp only [h10, if_false, hc, Bool.false_eq_true, and_false, hb, and_self, if_true]
  have e1 : maxVarCount / 10 = 26843545 := by decide
  have e2 : maxVarCount % 10 = 6 := by decide
  rw [e1, e2]
  by_cases hv : p.partialLit * 10 + (b.toNat - 48) ≤ 2 ^ 28
  · rw [if_pos hv, if_neg]
    intro ⟨h1, h2⟩
    split at h2 <;> omega
  · rw [if_neg hv, if_pos]
    refine ⟨by omega, ?_⟩
    split <;> omega

theorem digitsValue_append (ds : Bytes) (n : Nat) :
    n ≤ ds.foldl (fun n d => 10 * n + (d.toNat - 48)) n := by
  induction ds generalizing n with
  | nil => exact Nat.le_refl _
  | cons d ds ih => exact Nat.le_trans (by show n ≤ 10 * n + _; omega) (ih _)

/-- A run of digits. -/
theorem loop_digits (ds : Bytes) (p : DimacsParser) (hc : p.inCommentOrHeader = false)
    (hd : ds.all isDigit = true) (hp : p.partialLit ≤ 2 ^ 28) :
    let v := ds.foldl (fun n d => 10 * n + (d.toNat - 48)) p.partialLit
    (v ≤ 2 ^ 28 → p.parseLoop ds =
      ({ p with inLit := p.inLit || !ds.isEmpty, partialLit := v,
                startOfLine := p.startOfLine && ds.isEmpty }, none)) ∧
    (¬ v ≤ 2 ^ 28 → ∃ q i d, p.parseLoop ds = (q, some (.literalTooLarge p.lineNumber i d))) := by
  induction ds generalizing p with
  | nil => intro v; refine ⟨fun _ => by simp [v, parseLoop], fun h => absurd hp h⟩
  | cons d ds ih =>
    simp only [List.all_cons, Bool.and_eq_true] at hd
    intro v
    have hstep := parseByte_digit p d hc hd.1
    by_cases hv1 : p.partialLit * 10 + (d.toNat - 48) ≤ 2 ^ 28
    · rw [if_pos hv1] at hstep
      have hv : v = ds.foldl (fun n d => 10 * n + (d.toNat - 48))
          (p.partialLit * 10 + (d.toNat - 48)) := by
        simp only [v, List.foldl_cons]; congr 1; omega
      obtain ⟨h1, h2⟩ := ih
        { p with
          inLit := true
          partialLit := p.partialLit * 10 + (d.toNat - 48)
          startOfLine := false } hc hd.2 hv1
      simp only [parseLoop, hstep]
      simp only at h1 h2
      rw [← hv] at h1 h2
      refine ⟨fun h => by rw [h1 h]; simp, fun h => h2 h⟩
    · rw [if_neg hv1] at hstep
      have : ¬ v ≤ 2 ^ 28 := by
        have := digitsValue_append ds (10 * p.partialLit + (d.toNat - 48))
        simp only [v, List.foldl_cons]; omega
      refine ⟨fun h => absurd h this, fun _ => ?_⟩
      simp only [parseLoop, hstep]
      exact ⟨_, _, _, rfl⟩

theorem loop_digits0 (ds : Bytes) (p : DimacsParser) (hc : p.inCommentOrHeader = false)
    (hd : ds.all isDigit = true) (hp : p.partialLit = 0) :
    (digitsValue ds ≤ 2 ^ 28 → p.parseLoop ds =
      ({ p with inLit := p.inLit || !ds.isEmpty, partialLit := digitsValue ds,
                startOfLine := p.startOfLine && ds.isEmpty }, none)) ∧
    (¬ digitsValue ds ≤ 2 ^ 28 →
      ∃ q i d, p.parseLoop ds = (q, some (.literalTooLarge p.lineNumber i d))) := by
  have := loop_digits ds p hc hd (by omega)
  have e : ds.foldl (fun n d => 10 * n + (d.toNat - 48)) p.partialLit = digitsValue ds := by
    rw [hp]; rfl
  simp only at this
  rwa [e] at this

/-- Separator byte. -/
def isSep (b : UInt8) : Bool := b == 32 || b == 10 || b == 13

/-- Line terminator. -/
def isEol (b : UInt8) : Bool := b == 10 || b == 13

/-- The state after a separator that ends a number or blank. -/
def afterSep (p : DimacsParser) (b : UInt8) : DimacsParser :=
  let p := if b = 10 then { p with lineNumber := p.lineNumber + 1 } else p
  { p.finishLiteral with
      negateNextLit := false, inLit := false, partialLit := 0, startOfLine := b ≠ 32 }

theorem parseByte_sep (p : DimacsParser) (b : UInt8) (hc : p.inCommentOrHeader = false)
    (hb : isSep b = true) :
    (p.negateNextLit = false ∨ p.inLit = true → p.parseByte b = (afterSep p b, none)) ∧
    (p.negateNextLit = true ∧ p.inLit = false → ∃ q e, p.parseByte b = (q, some e)) := by
  simp only [isSep, Bool.or_eq_true, beq_iff_eq] at hb
  constructor
  · intro hn
    rcases hb with (rfl | rfl) | rfl <;>
      simp [parseByte, hc, afterSep, hn]
  · intro hn
    rcases hb with (rfl | rfl) | rfl <;>
      simp [parseByte, hc, hn]

/-- Any other byte in the data part. -/
theorem parseByte_other (p : DimacsParser) (b : UInt8) (hc : p.inCommentOrHeader = false)
    (hd : isDigit b = false) (hs : isSep b = false) (hm : b ≠ 45)
    (hl : p.startOfLine = false ∨ (b ≠ 99 ∧ b ≠ 112)) :
    ∃ q e, p.parseByte b = (q, some e) := by
  simp only [isSep, Bool.or_eq_false_iff, beq_eq_false_iff_ne] at hs
  simp only [isDigit, decide_eq_false_iff_not] at hd
  unfold parseByte
  simp only [hs, hc, hd, hm, if_false, Bool.false_eq_true, and_false, false_and, or_self]
  rw [if_neg (by grind), if_neg (by grind)]
  exact ⟨_, _, rfl⟩

theorem parseByte_minus (p : DimacsParser) (hc : p.inCommentOrHeader = false) :
    (p.negateNextLit = false ∧ p.inLit = false →
      p.parseByte 45 = ({ p with negateNextLit := true, startOfLine := false }, none)) ∧
    (¬ (p.negateNextLit = false ∧ p.inLit = false) → ∃ q e, p.parseByte 45 = (q, some e)) := by
  constructor
  · intro h; simp [parseByte, hc, h]
  · intro h
    have : ¬ ((!p.negateNextLit) = true ∧ (!p.inLit) = true) := by simpa using h
    have e : ((45 : UInt8) = 10) = False := by simp
    unfold parseByte
    simp only [e, if_false, hc, this]
    simp

/-! ### Words -/

/-- Between two words: no literal, comment or header in progress. -/
structure Mid (p : DimacsParser) : Prop where
  inLit : p.inLit = false
  neg : p.negateNextLit = false
  plit : p.partialLit = 0
  com : p.inCommentOrHeader = false
  hdr : p.inHeader = false
  err : p.error = false
  hl : p.header = none → p.headerLine = []

theorem Mid.new : Mid DimacsParser.new := ⟨rfl, rfl, rfl, rfl, rfl, rfl, fun _ => rfl⟩

/-- Effect of one number on formula and partial clause. -/
def pushInt (p : DimacsParser) (n : Int) : DimacsParser :=
  if n = 0 then
    { p with
      formula := p.formula.addClause p.partialClause
      partialClause := []
      clauseCount := p.clauseCount + 1 }
  else { p with partialClause := p.partialClause ++ [Lit.fromDimacs n] }

theorem unsigned?_some {ds : Bytes} {n : Nat} (h : unsigned? ds = some n) :
    ds ≠ [] ∧ ds.all isDigit = true ∧ digitsValue ds ≤ 2 ^ 28 ∧ digitsValue ds = n := by
  unfold unsigned? at h; split at h
  · rename_i h'; simp at h; exact ⟨h'.1, h'.2.1, h'.2.2, h⟩
  · simp at h

theorem number?_cons {b : UInt8} {ds : Bytes} (hb : b ≠ 45) :
    number? (b :: ds) = (unsigned? (b :: ds)).map (fun (n : Nat) => (n : Int)) := by
  unfold number?; split
  · rename_i h; simp at h; exact absurd h.1 hb
  · rfl

theorem fromDimacs_pos {v : Nat} (h : v ≠ 0) : Lit.fromDimacs (v : Int) = Lit.mk' (v - 1) true := by
  unfold Lit.fromDimacs; congr 1; simp; omega
theorem fromDimacs_neg {v : Nat} (h : v ≠ 0) : Lit.fromDimacs (-(v : Int)) = Lit.mk' (v - 1) false := by
  unfold Lit.fromDimacs; congr 1
  · omega
  · simp

/-- A valid number word leaves the parser in a state where finishing the literal has the effect
of the number. -/
theorem loop_number {p : DimacsParser} (hp : Mid p) {w : Bytes} {n : Int}
    (hn : number? w = some n) :
    ∃ q, p.parseLoop w = (q, none) ∧ q.inLit = true ∧ q.inCommentOrHeader = false ∧
      q.inHeader = false ∧
      (∃ neg pl, q.finishLiteral =
        { pushInt p n with inLit := true, negateNextLit := neg, partialLit := pl,
                           startOfLine := false }) ∧
      ∃ neg pl, q =
        { p with inLit := true, negateNextLit := neg, partialLit := pl, startOfLine := false } := by
  cases w with
  | nil => simp [number?, unsigned?] at hn
  | cons b ds =>
    by_cases hb : b = 45
    · subst hb
      simp only [number?, Option.map_eq_some_iff] at hn
      obtain ⟨v, hv, rfl⟩ := hn
      obtain ⟨hne, hall, hle, rfl⟩ := unsigned?_some hv
      have hm := (parseByte_minus p hp.com).1 ⟨hp.neg, hp.inLit⟩
      have hds := (loop_digits0 ds { p with negateNextLit := true, startOfLine := false } hp.com hall
        hp.plit).1 hle
      have hcons : p.parseLoop (45 :: ds) =
          parseLoop { p with negateNextLit := true, startOfLine := false } ds := by
        rw [parseLoop.eq_2, hm]
      refine ⟨_, hcons.trans hds, ?_, hp.com, hp.hdr, ?_, ?_⟩
      · simp [hne]
      · refine ⟨true, digitsValue ds, ?_⟩
        have h0 : (-(digitsValue ds : Int) = 0) ↔ digitsValue ds = 0 := by omega
        simp only [finishLiteral, pushInt, h0]
        by_cases hz : digitsValue ds = 0
        · simp [hz, hne, hp.inLit]
        · simp [hz, hne, hp.inLit, fromDimacs_neg hz]
      · exact ⟨true, digitsValue ds, by simp [hne, hp.inLit]⟩
    · rw [number?_cons hb] at hn
      simp only [Option.map_eq_some_iff] at hn
      obtain ⟨v, hv, rfl⟩ := hn
      obtain ⟨hne, hall, hle, rfl⟩ := unsigned?_some hv
      have hds := (loop_digits0 (b :: ds) p hp.com hall hp.plit).1 hle
      refine ⟨_, hds, ?_, hp.com, hp.hdr, ?_, ?_⟩
      · simp
      · refine ⟨false, digitsValue (b :: ds), ?_⟩
        have h0 : ((digitsValue (b :: ds) : Int) = 0) ↔ digitsValue (b :: ds) = 0 := by omega
        simp only [finishLiteral, pushInt, h0]
        by_cases hz : digitsValue (b :: ds) = 0
        · simp [hz, hp.inLit, hp.neg]
        · simp [hz, hp.inLit, hp.neg, fromDimacs_pos hz]
      · exact ⟨false, digitsValue (b :: ds), by simp [hp.inLit, hp.neg]⟩

/-- Digits followed by a non-digit inside a word. -/
theorem loop_digits_bad (ds : Bytes) (p : DimacsParser) (hc : p.inCommentOrHeader = false)
    (hp : p.partialLit ≤ 2 ^ 28) (hl : p.startOfLine = false) (hi : p.inLit = true)
    (hs : ∀ b ∈ ds, isSep b = false)
    (hd : ds.all isDigit = false) : ∃ q e, p.parseLoop ds = (q, some e) := by
  induction ds generalizing p with
  | nil => simp at hd
  | cons d ds ih =>
    by_cases hdd : isDigit d = true
    · have hstep := parseByte_digit p d hc hdd
      by_cases hv1 : p.partialLit * 10 + (d.toNat - 48) ≤ 2 ^ 28
      · rw [if_pos hv1] at hstep
        simp only [parseLoop, hstep]
        refine ih _ hc hv1 rfl rfl (fun b hb => hs b (by simp [hb])) ?_
        simpa [hdd] using hd
      · rw [if_neg hv1] at hstep
        simp only [parseLoop, hstep]; exact ⟨_, _, rfl⟩
    · simp only [parseLoop]
      by_cases hm : d = 45
      · subst hm
        obtain ⟨q, e, h⟩ := (parseByte_minus p hc).2 (by simp [hi])
        rw [h]; exact ⟨_, _, rfl⟩
      · obtain ⟨q, e, h⟩ := parseByte_other p d hc (by simpa using hdd) (hs d (by simp)) hm (.inl hl)
        rw [h]; exact ⟨_, _, rfl⟩

/-- A word that is no number gives an error, immediately or (only for the word `-`) at the next
separator. -/
theorem loop_bad {p : DimacsParser} (hp : Mid p) {w : Bytes} (hne : w ≠ [])
    (hs : ∀ b ∈ w, isSep b = false) (hn : number? w = none)
    (hl : p.startOfLine = false ∨ (w.head? ≠ some 99 ∧ w.head? ≠ some 112)) :
    (∃ q e, p.parseLoop w = (q, some e)) ∨
    (w = [45] ∧ p.parseLoop w = ({ p with negateNextLit := true, startOfLine := false }, none)) := by
  cases w with
  | nil => exact absurd rfl hne
  | cons b ds =>
    by_cases hb : b = 45
    · subst hb
      have hm := (parseByte_minus p hp.com).1 ⟨hp.neg, hp.inLit⟩
      cases ds with
      | nil => right; simp [parseLoop, hm]
      | cons d ds =>
        left
        simp only [number?, Option.map_eq_none_iff] at hn
        have hcons : p.parseLoop (45 :: d :: ds) =
            parseLoop { p with negateNextLit := true, startOfLine := false } (d :: ds) := by
          rw [parseLoop.eq_2, hm]
        rw [hcons]
        by_cases hall : (d :: ds).all isDigit = true
        · have hv : ¬ digitsValue (d :: ds) ≤ 2 ^ 28 := by
            intro h; simp only [unsigned?, hall, h] at hn; simp at hn
          have := (loop_digits0 (d :: ds) { p with negateNextLit := true, startOfLine := false }
            hp.com hall hp.plit).2
          obtain ⟨q, i, d', h⟩ := this hv
          exact ⟨q, _, h⟩
        · by_cases hdd : isDigit d = true
          · have hstep := parseByte_digit { p with negateNextLit := true, startOfLine := false } d
              hp.com hdd
            have hlt : p.partialLit * 10 + (d.toNat - 48) ≤ 2 ^ 28 := by
              have := hp.plit
              simp only [isDigit, decide_eq_true_eq] at hdd; omega
            rw [if_pos hlt] at hstep
            simp only [parseLoop, hstep]
            refine loop_digits_bad ds _ hp.com (by simpa using hlt) rfl rfl
              (fun b hb => hs b (by simp [hb])) ?_
            simpa [hdd] using hall
          · simp only [parseLoop]
            by_cases hm2 : d = 45
            · subst hm2
              obtain ⟨q, e, h⟩ := (parseByte_minus
                { p with negateNextLit := true, startOfLine := false } hp.com).2 (by simp)
              rw [h]; exact ⟨_, _, rfl⟩
            · obtain ⟨q, e, h⟩ := parseByte_other
                { p with negateNextLit := true, startOfLine := false } d hp.com (by simpa using hdd)
                (hs d (by simp)) hm2 (.inl rfl)
              rw [h]; exact ⟨_, _, rfl⟩
    · left
      rw [number?_cons hb] at hn
      simp only [Option.map_eq_none_iff] at hn
      by_cases hall : (b :: ds).all isDigit = true
      · have hv : ¬ digitsValue (b :: ds) ≤ 2 ^ 28 := by
          intro h; simp only [unsigned?, hall, h] at hn; simp at hn
        have := (loop_digits0 (b :: ds) p hp.com hall hp.plit).2
        obtain ⟨q, i, d', h⟩ := this hv
        exact ⟨q, _, h⟩
      · by_cases hdd : isDigit b = true
        · have hstep := parseByte_digit p b hp.com hdd
          have hlt : p.partialLit * 10 + (b.toNat - 48) ≤ 2 ^ 28 := by
            have := hp.plit
            simp only [isDigit, decide_eq_true_eq] at hdd; omega
          rw [if_pos hlt] at hstep
          simp only [parseLoop, hstep]
          refine loop_digits_bad ds _ hp.com (by simpa using hlt) rfl rfl
            (fun b hb => hs b (by simp [hb])) ?_
          simpa [hdd] using hall
        · simp only [parseLoop]
          obtain ⟨q, e, h⟩ := parseByte_other p b hp.com (by simpa using hdd)
            (hs b (by simp)) hb (by simpa using hl)
          rw [h]; exact ⟨_, _, rfl⟩

end Varisat.DimacsParser
