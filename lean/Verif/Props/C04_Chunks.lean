import Verif.Props.C08_DimacsLanguage
/-!
# C04: parsing does not depend on how the input is split
# C06: numbers are read exactly or rejected
# C08: reported line numbers
-/
namespace Varisat.C04
open DimacsParser Varisat.Spec.Dimacs

/-- Feed chunks through the incremental interface, stopping at the first error. -/
def feed (p : DimacsParser) : List Bytes → DimacsParser × Option ParserError
  | [] => (p, none)
  | c :: cs => match p.parseChunk c with
    | (p, some e) => (p, some e)
    | (p, none) => feed p cs

/-- Same bytes, any two chunkings: `parse` gives the same formula or the same error. -/
theorem parse_chunking (xs ys : List Bytes) (h : xs.flatten = ys.flatten) : parse xs = parse ys := by
  unfold parse; rw [parseIncremental_whole xs new rfl, parseIncremental_whole ys new rfl, h]

/-- Same bytes, any two chunkings through the incremental interface: the same parser state
(formula, header, counters, pending input) and the same error. -/
theorem feed_chunking (xs ys : List Bytes) (h : xs.flatten = ys.flatten) :
    feed new xs = feed new ys := by
  have key : ∀ (xs : List Bytes) (p : DimacsParser), p.error = false →
      feed p xs = p.parseLoop xs.flatten := by
    intro xs
    induction xs with
    | nil => intro p _; rfl
    | cons c xs ih =>
      intro p hp
      have he := parseLoop_error_iff p c hp
      simp only [feed, parseChunk_ok hp, List.flatten_cons]
      rcases hl : p.parseLoop c with ⟨q, _ | e⟩
      · rw [hl] at he
        simp only [ih q (by simpa using he), loop_append_ok hl]
      · simp only [loop_append_err hl]
  rw [key xs new rfl, key ys new rfl, h]

/-- After an error every later chunk is refused with `PreviousError` and changes nothing, so a
caller that continues cannot obtain more clauses. -/
theorem error_sticky (p q : DimacsParser) (c : Bytes) (e : ParserError) (hp : p.error = false)
    (h : p.parseChunk c = (q, some e)) (d : Bytes) :
    q.parseChunk d = (q, some .previousError) := by
  have he := parseLoop_error_iff p c hp
  rw [← parseChunk_ok hp, h] at he
  exact parseChunk_error (by simpa using he) d

example : (new.parseChunk (ascii "1 x")).2 = some (.unexpectedInput 1 120) ∧
    [ascii "1 -", ascii "2 0"].flatten = [ascii "1", ascii "", ascii " -2 0"].flatten := by decide

end Varisat.C04

namespace Varisat.C06
open DimacsParser Varisat.Spec.Dimacs

theorem finishLiteral_line (p : DimacsParser) : p.finishLiteral.lineNumber = p.lineNumber := by
  unfold finishLiteral; grind

/-- A number followed by the end of the clause is read exactly when its value is in range. The
literal produced has that value and the given sign. -/
theorem number_exact (neg : Bool) (ds : Bytes) (hne : ds ≠ []) (hd : ds.all isDigit = true) :
    let input := (if neg then [45] else []) ++ ds ++ ascii " 0\n"
    (1 ≤ digitsValue ds ∧ digitsValue ds ≤ 2 ^ 28 →
      ∃ f, parse [input] = .ok f ∧
        f.iter = some [[Lit.fromDimacs (if neg then - (digitsValue ds : Int) else digitsValue ds)]]) ∧
    (digitsValue ds > 2 ^ 28 → ∃ i d, parse [input] = .error (.literalTooLarge 1 i d)) ∧
    (digitsValue ds = 0 → ∃ f, parse [input] = .ok f ∧ f.iter = some [[], []]) := by
  intro input
  have hsep : ∀ b ∈ ds, isDigit b = true := by simpa using hd
  have hnosep : ∀ b ∈ ds, b ≠ 10 ∧ b ≠ 13 ∧ b ≠ 32 ∧ b ≠ 99 ∧ b ≠ 112 ∧ b ≠ 45 := by
    intro b hb
    have := hsep b hb
    simp only [isDigit, Bool.decide_and, Bool.and_eq_true, decide_eq_true_eq] at this
    refine ⟨?_, ?_, ?_, ?_, ?_, ?_⟩ <;> (rintro rfl; revert this; decide)
  have e1 : ascii " 0\n" = [32, 48, 10] := by decide
  let w : Bytes := (if neg then [45] else []) ++ ds
  have hw : ∀ b ∈ w, b ≠ 10 ∧ b ≠ 13 ∧ b ≠ 32 ∧ b ≠ 99 ∧ b ≠ 112 := by
    intro b hb
    simp only [w, List.mem_append] at hb
    rcases hb with hb | hb
    · cases neg <;> simp at hb; subst hb; decide
    · have := hnosep b hb; exact ⟨this.1, this.2.1, this.2.2.1, this.2.2.2.1, this.2.2.2.2.1⟩
  have hwne : w ≠ [] := by simp [w, hne]
  have hin : input = w ++ 32 :: [48, 10] := by simp [input, w, e1]
  have hlines : lines input = [w ++ [32, 48], []] := by
    have : input = (w ++ [32, 48]) ++ 10 :: [] := by simp [hin]
    rw [this]
    unfold lines
    rw [split_sep ?_ (by rfl)]
    · rfl
    · intro b hb
      simp only [List.mem_append, List.mem_cons, List.not_mem_nil, or_false] at hb
      rcases hb with hb | rfl | rfl
      · have := hw b hb; simp [this]
      · rfl
      · rfl
  have hwords : words (w ++ [32, 48]) = [w, [48]] := by
    have := words_sep (w := w) (rest := [48]) (by intro b hb; simp [hw b hb])
    rw [show w ++ [32, 48] = w ++ 32 :: [48] from rfl, this,
      words_none (by intro b hb; simp [hw b hb]), if_neg hwne]
    rfl
  have hhead : (w ++ [32, 48]).head? ≠ some 99 ∧ (w ++ [32, 48]).head? ≠ some 112 := by
    cases hc : w with
    | nil => exact absurd hc hwne
    | cons b w' =>
      have := hw b (by simp [hc])
      simp [this]
  have hnum : number? w = (unsigned? ds).map
      (fun (n : Nat) => if neg then - (n : Int) else (n : Int)) := by
    cases neg with
    | true => rfl
    | false =>
      cases hc : ds with
      | nil => exact absurd hc hne
      | cons b bs =>
        have hb : b ≠ 45 := by exact (hnosep b (by simp [hc])).2.2.2.2.2
        have : w = b :: bs := by simp [w, hc]
        rw [this]
        unfold number?
        split
        · rename_i h; simp at h; exact absurd h.1 hb
        · rfl
  have hflat : [input].flatten = input := by simp
  have hno : ∀ l ∈ lines [input].flatten, l.head? ≠ some 112 := by
    rw [hflat, hlines]; intro l hl
    simp only [List.mem_cons, List.not_mem_nil, or_false] at hl
    rcases hl with rfl | rfl
    · exact hhead.2
    · simp
  have hlast : [input].flatten.getLast? ≠ some 45 := by rw [hflat, hin]; simp
  have hdoc : ∀ cs, (∃ f, parse [input] = .ok f ∧ f.iter = some cs) ↔
      ∃ n, number? w = some n ∧ readClauses [] [n, 0] = some cs := by
    intro cs
    rw [C08.accepts_no_header_partial [input] hlast hno cs, hflat, hlines]
    have : ((([w ++ [32, 48], []] : List Bytes).filter (fun l => l.head? ≠ some 99)).flatMap words)
        = [w, [48]] := by
      have h1 : ([w ++ [32, 48], []] : List Bytes).filter (fun l => l.head? ≠ some 99) =
        [w ++ [32, 48], []] := by
        rw [List.filter_cons_of_pos (by simpa using hhead.1)]; rfl
      rw [h1, List.flatMap_cons, hwords]; rfl
    rw [this]
    have h0 : number? [48] = some 0 := by decide
    simp only [List.mapM_cons, List.mapM_nil, h0]
    cases number? w <;> simp
  refine ⟨fun ⟨hv1, hv2⟩ => ?_, fun hv => ?_, fun hv => ?_⟩
  · rw [hdoc]
    refine ⟨_, by rw [hnum, unsigned?, if_pos ⟨hne, hd, hv2⟩]; rfl, ?_⟩
    have : (if neg then - (digitsValue ds : Int) else (digitsValue ds : Int)) ≠ 0 := by
      split <;> omega
    simp [readClauses, this]
  · -- too large
    have hbig : ∀ p : DimacsParser, p.inCommentOrHeader = false → p.partialLit = 0 →
        p.lineNumber = 1 → ∃ q i d, p.parseLoop (ds ++ ascii " 0\n") =
          (q, some (.literalTooLarge 1 i d)) := by
      intro p h1 h2 h3
      obtain ⟨q, i, d, h⟩ := (loop_digits0 ds p h1 hd h2).2 (by omega)
      exact ⟨q, i, d, by rw [loop_append_err h, h3]⟩
    have hl : ∃ q i d, new.parseLoop input = (q, some (.literalTooLarge 1 i d)) := by
      cases neg with
      | false => exact hbig new rfl rfl rfl
      | true =>
        have : input = [45] ++ (ds ++ ascii " 0\n") := by simp [input]
        rw [this, loop_append_ok (q := { new with negateNextLit := true, startOfLine := false }) rfl]
        exact hbig _ rfl rfl rfl
    obtain ⟨q, i, d, hl⟩ := hl
    refine ⟨i, d, ?_⟩
    unfold parse
    rw [parseIncremental_whole [input] new rfl, hflat]
    simp [whole, hl]
  · rw [hdoc]
    refine ⟨0, by rw [hnum, unsigned?, if_pos ⟨hne, hd, by omega⟩]; simp [hv], by decide⟩

example : (ascii "00268435456").all isDigit = true ∧ digitsValue (ascii "00268435456") = 2 ^ 28 ∧
    digitsValue (ascii "268435457") > 2 ^ 28 := by decide

end Varisat.C06

namespace Varisat.C08
open DimacsParser Varisat.Spec.Dimacs

/-- The line a parser error reports. -/
def errorLine : ParserError → Option Nat
  | .unexpectedInput l _ => some l
  | .literalTooLarge l _ _ => some l
  | .invalidHeader l _ => some l
  | .unterminatedClause l => some l
  | _ => none

theorem parseHeaderLine_line (p : DimacsParser) :
    (∀ q, p.parseHeaderLine = (q, none) → q.lineNumber = p.lineNumber) ∧
    (∀ q e, p.parseHeaderLine = (q, some e) → errorLine e = some p.lineNumber) := by
  unfold parseHeaderLine invalidHeader
  constructor
  · intro q h
    revert h
    repeat' split
    all_goals simp
    all_goals (intro h; subst h; rfl)
  · intro q e h
    revert h
    repeat' split
    all_goals simp
    all_goals (intro _ h; subst h; rfl)

theorem parseByte_line (p : DimacsParser) (b : UInt8) :
    (∀ q, p.parseByte b = (q, none) → q.lineNumber = p.lineNumber + if b = 10 then 1 else 0) ∧
    (∀ q e, p.parseByte b = (q, some e) →
      errorLine e = some (p.lineNumber + if b = 10 then 1 else 0)) := by
  have hp : ∃ p' : DimacsParser, (if b = 10 then { p with lineNumber := p.lineNumber + 1 } else p) = p' ∧
      p'.lineNumber = p.lineNumber + if b = 10 then 1 else 0 := by
    refine ⟨_, rfl, ?_⟩; split <;> rfl
  obtain ⟨p', h1, h2⟩ := hp
  rw [← h2]
  clear h2
  unfold parseByte
  simp only [h1]
  have hh := parseHeaderLine_line { p' with inHeader := false }
  have hf := C06.finishLiteral_line p'
  split
  · split
    · rcases hq : DimacsParser.parseHeaderLine { p' with inHeader := false } with ⟨r, _ | e⟩
      · rw [hq] at hh
        refine ⟨?_, by simp⟩
        intro q hq; simp at hq; subst hq; exact hh.1 r rfl
      · rw [hq] at hh
        refine ⟨by simp, ?_⟩
        intro q e' hq; simp at hq; rw [← hq.2]; exact hh.2 r e rfl
    · refine ⟨?_, by simp⟩; intro q hq; simp at hq; subst hq; rfl
  · split
    · split
      · refine ⟨?_, by simp⟩; intro q hq; simp at hq; subst hq; rfl
      · refine ⟨?_, by simp⟩; intro q hq; simp at hq; subst hq; rfl
    · repeat' split
      all_goals first
        | (refine ⟨?_, by simp⟩; intro q hq; simp at hq; subst hq; first | rfl | exact hf)
        | (refine ⟨by simp, ?_⟩; intro q e hq; simp at hq; rw [← hq.2]; rfl)

/-- **Line numbers.** If a chunk is rejected then there is a first offending byte: everything before
it is accepted, the input up to and including it is rejected with the same error, and the reported
line is one plus the number of line feeds up to and including that byte. So the reported line is
the line of the offending byte, unless that byte itself is the line feed. -/
theorem error_line (bs : Bytes) (q : DimacsParser) (e : ParserError)
    (h : new.parseChunk bs = (q, some e)) :
    ∃ pre b post, bs = pre ++ b :: post ∧ (new.parseChunk pre).2 = none ∧
      new.parseChunk (pre ++ [b]) = (q, some e) ∧
      errorLine e = some (1 + (pre ++ [b]).count 10) := by
  rw [parseChunk_ok rfl] at h
  have key : ∀ (bs : Bytes) (p : DimacsParser), p.parseLoop bs = (q, some e) →
      ∃ pre b post r, bs = pre ++ b :: post ∧ p.parseLoop pre = (r, none) ∧
        p.parseLoop (pre ++ [b]) = (q, some e) ∧
        errorLine e = some (p.lineNumber + (pre ++ [b]).count 10) := by
    intro bs
    induction bs with
    | nil => intro p h; simp [parseLoop] at h
    | cons b bs ih =>
      intro p h
      have hb := parseByte_line p b
      simp only [parseLoop] at h
      rcases hq : p.parseByte b with ⟨r, _ | e'⟩
      · rw [hq] at h hb
        simp only at h
        obtain ⟨pre, c, post, r', h1, h2, h3, h4⟩ := ih r h
        refine ⟨b :: pre, c, post, r', by simp [h1], by simp [parseLoop, hq, h2],
          by simp [parseLoop, hq, h3], ?_⟩
        rw [h4, hb.1 r rfl]
        simp only [List.cons_append, List.count_cons, beq_iff_eq]
        congr 1; omega
      · rw [hq] at h hb
        simp only [Prod.mk.injEq, Option.some.injEq] at h
        obtain ⟨rfl, rfl⟩ := h
        refine ⟨[], b, bs, p, rfl, rfl, by simp [parseLoop, hq], ?_⟩
        rw [hb.2 r e' rfl]
        simp [List.count_cons]
  obtain ⟨pre, b, post, r, h1, h2, h3, h4⟩ := key bs new h
  exact ⟨pre, b, post, h1, by rw [parseChunk_ok rfl, h2], by rw [parseChunk_ok rfl, h3], h4⟩

/-- The restriction is real: for a malformed header ended by a line feed the reported line is the
one after the header, here 2 for an error in line 1. -/
theorem header_error_line_off_by_one :
    parse [ascii "p cnf x 1\n1 0\n"] = .error (.invalidHeader 2 (ascii "p cnf x 1")) := rfl

example : parse [ascii "1 0\n1 x 0\n"] = .error (.unexpectedInput 2 120) := rfl

end Varisat.C08
