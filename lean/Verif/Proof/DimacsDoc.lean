import Verif.Proof.Dimacs
import Verif.Proof.Utf8
/-!
# The byte-wise parser agrees with the line/word reading of a file
-/
namespace Varisat.DimacsParser
open Varisat.Spec.Dimacs

/-! ### split -/

theorem split_none {p : UInt8 → Bool} {bs : Bytes} (h : ∀ b ∈ bs, p b = false) :
    split p bs = [bs] := by
  induction bs with
  | nil => rfl
  | cons b bs ih =>
    simp only [split, h b (by simp), Bool.false_eq_true, if_false]
    rw [ih (fun x hx => h x (by simp [hx]))]

theorem split_sep {p : UInt8 → Bool} {w rest : Bytes} {s : UInt8} (h : ∀ b ∈ w, p b = false)
    (hs : p s = true) : split p (w ++ s :: rest) = w :: split p rest := by
  induction w with
  | nil => simp [split, hs]
  | cons b bs ih =>
    simp only [List.cons_append, split, h b (by simp), Bool.false_eq_true, if_false]
    rw [ih (fun x hx => h x (by simp [hx]))]

theorem split_cases (p : UInt8 → Bool) (bs : Bytes) : (∀ b ∈ bs, p b = false) ∨
    ∃ w s rest, bs = w ++ s :: rest ∧ (∀ b ∈ w, p b = false) ∧ p s = true := by
  induction bs with
  | nil => left; simp
  | cons b bs ih =>
    by_cases hb : p b = true
    · right; exact ⟨[], b, bs, rfl, by simp, hb⟩
    · rcases ih with ih | ⟨w, s, rest, h1, h2, h3⟩
      · left; intro x hx; rcases List.mem_cons.1 hx with rfl | hx
        · simpa using hb
        · exact ih x hx
      · right; refine ⟨b :: w, s, rest, by simp [h1], ?_, h3⟩
        intro x hx; rcases List.mem_cons.1 hx with rfl | hx
        · simpa using hb
        · exact h2 x hx

theorem mem_split {p : UInt8 → Bool} (bs : Bytes) : ∀ w ∈ split p bs, ∀ b ∈ w, b ∈ bs := by
  induction bs with
  | nil => simp [split]
  | cons x bs ih =>
    intro w hw b hb
    simp only [split] at hw
    split at hw
    · rcases List.mem_cons.1 hw with rfl | hw
      · simp at hb
      · exact List.mem_cons_of_mem _ (ih w hw b hb)
    · split at hw
      · simp at hw; subst hw; simp at hb; simp [hb]
      · rename_i y ys heq
        rcases List.mem_cons.1 hw with rfl | hw
        · rcases List.mem_cons.1 hb with rfl | hb
          · simp
          · exact List.mem_cons_of_mem _ (ih y (by simp [heq]) b hb)
        · exact List.mem_cons_of_mem _ (ih w (by simp [heq, hw]) b hb)

/-! ### Core state -/

/-- The part of the state that survives between words. -/
structure Core where
  formula : CnfFormula
  partialClause : List Lit
  clauseCount : Nat
  header : Option DimacsHeader
  headerLine : Bytes

/-- Projection. -/
def core (p : DimacsParser) : Core :=
  ⟨p.formula, p.partialClause, p.clauseCount, p.header, p.headerLine⟩

/-- Effect of one number. -/
def Core.push (c : Core) (n : Int) : Core :=
  if n = 0 then
    { c with
      formula := c.formula.addClause c.partialClause
      partialClause := []
      clauseCount := c.clauseCount + 1 }
  else { c with partialClause := c.partialClause ++ [Lit.fromDimacs n] }

theorem core_pushInt (p : DimacsParser) (n : Int) : core (pushInt p n) = (core p).push n := by
  unfold pushInt Core.push core; split <;> rfl

theorem finishLiteral_noop {p : DimacsParser} (h : p.inLit = false) : p.finishLiteral = p := by
  unfold finishLiteral; simp [h]

theorem core_afterSep (p : DimacsParser) (b : UInt8) :
    core (afterSep p b) = core p.finishLiteral := by
  unfold afterSep finishLiteral core; split <;> split <;> (try split) <;> simp_all

theorem mid_afterSep {p : DimacsParser} (b : UInt8) (h1 : p.inCommentOrHeader = false)
    (h2 : p.inHeader = false) (h3 : p.error = false) (h4 : p.header = none → p.headerLine = []) :
    Mid (afterSep p b) := by
  have hf : ∀ q : DimacsParser, q.inCommentOrHeader = false → q.inHeader = false →
      q.error = false → (q.header = none → q.headerLine = []) →
      q.finishLiteral.inCommentOrHeader = false ∧ q.finishLiteral.inHeader = false ∧
      q.finishLiteral.error = false ∧
      (q.finishLiteral.header = none → q.finishLiteral.headerLine = []) := by
    intro q a1 a2 a3 a4
    unfold finishLiteral
    split
    · split <;> exact ⟨a1, a2, a3, a4⟩
    · exact ⟨a1, a2, a3, a4⟩
  have := hf (if b = 10 then { p with lineNumber := p.lineNumber + 1 } else p)
    (by split <;> exact h1) (by split <;> exact h2) (by split <;> exact h3)
    (by split <;> exact h4)
  exact ⟨rfl, rfl, rfl, this.1, this.2.1, this.2.2.1, this.2.2.2⟩

theorem afterSep_sol (p : DimacsParser) (b : UInt8) : (afterSep p b).startOfLine = decide (b ≠ 32) := by
  simp [afterSep]

/-- What a (possibly empty) word between separators says. -/
def wordInts (w : Bytes) : Option (List Int) :=
  if w = [] then some [] else (number? w).map ([·])

theorem word_sep {p : DimacsParser} (hp : Mid p) {w : Bytes} {s : UInt8}
    (hw : ∀ b ∈ w, isSep b = false) (hs : isSep s = true)
    (hl : p.startOfLine = false ∨ (w.head? ≠ some 99 ∧ w.head? ≠ some 112)) :
    match wordInts w with
    | some ns => ∃ q, p.parseLoop (w ++ [s]) = (q, none) ∧ Mid q ∧
        q.startOfLine = decide (s ≠ 32) ∧ core q = ns.foldl Core.push (core p)
    | none => ∃ q e, p.parseLoop (w ++ [s]) = (q, some e) := by
  unfold wordInts
  by_cases hne : w = []
  · subst hne
    simp only [if_true, List.nil_append]
    have := (parseByte_sep p s hp.com hs).1 (.inl hp.neg)
    refine ⟨afterSep p s, by simp [parseLoop, this], mid_afterSep s hp.com hp.hdr hp.err hp.hl,
      afterSep_sol _ _, ?_⟩
    rw [core_afterSep, finishLiteral_noop hp.inLit]; rfl
  · simp only [hne, if_false]
    cases hn : number? w with
    | some n =>
      obtain ⟨q, h1, h2, h3, h4, ⟨neg, pl, h5⟩, ⟨neg', pl', h6⟩⟩ := loop_number hp hn
      have := (parseByte_sep q s h3 hs).1 (.inr h2)
      refine ⟨afterSep q s, ?_, ?_, afterSep_sol _ _, ?_⟩
      · rw [loop_append_ok h1]; simp [parseLoop, this]
      · exact mid_afterSep s h3 h4 (by rw [h6]; exact hp.err) (by rw [h6]; exact hp.hl)
      · rw [core_afterSep, h5]
        show core (pushInt p n) = _
        rw [core_pushInt]; rfl
    | none =>
      rcases loop_bad hp hne hw hn hl with ⟨q, e, h⟩ | ⟨_, h⟩
      · exact ⟨q, e, loop_append_err h⟩
      · show ∃ q e, _
        rw [loop_append_ok h]
        obtain ⟨q, e, h⟩ := (parseByte_sep { p with negateNextLit := true, startOfLine := false } s
          hp.com hs).2 ⟨rfl, hp.inLit⟩
        exact ⟨q, e, by simp [parseLoop, h]⟩

theorem words_none {bs : Bytes} (h : ∀ b ∈ bs, (b == 32) = false) :
    words bs = if bs = [] then [] else [bs] := by
  unfold words; rw [split_none h]; by_cases hb : bs = [] <;> simp [hb]

theorem words_sep {w rest : Bytes} (h : ∀ b ∈ w, (b == 32) = false) :
    words (w ++ 32 :: rest) = words w ++ words rest := by
  have : words (w ++ 32 :: rest) = (w :: split (fun b => b == 32) rest).filter (· ≠ []) := by
    unfold words; rw [split_sep h (by rfl)]
  rw [this, words_none h]
  unfold words
  by_cases hw : w = [] <;> simp [hw]

theorem mapM_words_single (w : Bytes) :
    (if w = [] then ([] : List Bytes) else [w]).mapM number? = wordInts w := by
  unfold wordInts; by_cases hw : w = []
  · simp [hw]
  · simp only [hw, if_false, List.mapM_cons, List.mapM_nil]
    cases number? w <;> rfl

/-- A data line, ended by a line terminator. -/
theorem data_line (n : Nat) : ∀ (bs : Bytes) (p : DimacsParser) (s : UInt8), bs.length ≤ n →
    Mid p → (∀ b ∈ bs, isEol b = false) → isEol s = true →
    (p.startOfLine = false ∨ (bs.head? ≠ some 99 ∧ bs.head? ≠ some 112)) →
    match (words bs).mapM number? with
    | some ns => ∃ q, p.parseLoop (bs ++ [s]) = (q, none) ∧ Mid q ∧ q.startOfLine = true ∧
        core q = ns.foldl Core.push (core p)
    | none => ∃ q e, p.parseLoop (bs ++ [s]) = (q, some e) := by
  induction n with
  | zero =>
    intro bs p s hlen hp hb hs hl
    have : bs = [] := List.length_eq_zero_iff.1 (by omega)
    subst this
    have hs' : isSep s = true ∧ s ≠ 32 := by
      simp only [isEol, isSep, Bool.or_eq_true, beq_iff_eq] at hs ⊢
      rcases hs with rfl | rfl <;> simp
    have := word_sep hp (w := []) (by simp) hs'.1 (by simp)
    simp only [wordInts, if_true] at this
    simpa [words, split, hs'.2] using this
  | succ n ih =>
    intro bs p s hlen hp hb hs hl
    have hs' : isSep s = true ∧ s ≠ 32 := by
      simp only [isEol, isSep, Bool.or_eq_true, beq_iff_eq] at hs ⊢
      rcases hs with rfl | rfl <;> simp
    rcases split_cases (fun b => b == 32) bs with h | ⟨w, s', rest, rfl, hw, hs2⟩
    · rw [words_none h, mapM_words_single]
      have := word_sep hp (w := bs) (s := s) (by
        intro b hbb
        have h1 := h b hbb; have h2 := hb b hbb
        simp only [isEol] at h2; simp only [isSep, Bool.or_assoc, h2, Bool.or_false]; exact h1)
        hs'.1 hl
      revert this
      cases wordInts bs with
      | none => exact id
      | some ns => simp [hs'.2]
    · have hs2 : s' = 32 := by simpa using hs2
      subst hs2
      rw [words_sep hw, List.mapM_append, words_none hw, mapM_words_single]
      have hhead : p.startOfLine = false ∨ (w.head? ≠ some 99 ∧ w.head? ≠ some 112) := by
        rcases hl with hl | hl
        · exact .inl hl
        · right; cases w with
          | nil => simp
          | cons x w => simpa using hl
      have h1 := word_sep hp (w := w) (s := 32) (by
        intro b hbb
        have h1 := hw b hbb; have h2 := hb b (by simp [hbb])
        simp only [isEol] at h2; simp only [isSep, Bool.or_assoc, h2, Bool.or_false]; exact h1)
        (by rfl) hhead
      have hsplit : w ++ 32 :: rest ++ [s] = (w ++ [32]) ++ (rest ++ [s]) := by simp
      rw [hsplit]
      revert h1
      cases wordInts w with
      | none => intro ⟨q, e, h⟩; exact ⟨q, e, loop_append_err h⟩
      | some ns1 =>
        intro ⟨q, h1, h2, h3, h4⟩
        rw [loop_append_ok h1]
        have := ih rest q s (by simp at hlen; omega) h2 (fun b hbb => hb b (by simp [hbb])) hs
          (.inl (by simpa using h3))
        revert this
        simp only [Option.pure_def, Option.bind_eq_bind, Option.bind_some]
        cases (words rest).mapM number? with
        | none => exact id
        | some ns2 =>
          simp only [Option.bind_some]
          intro ⟨q', g1, g2, g3, g4⟩
          exact ⟨q', g1, g2, g3, by rw [g4, h4, List.foldl_append]⟩

/-! ### end of input -/

/-- Run the loop over the rest of the input, then `eof`; the core state if there is no error. -/
def finish (p : DimacsParser) (bs : Bytes) : Option Core :=
  match p.parseLoop bs with
  | (_, some _) => none
  | (q, none) => match q.eof with
    | (_, some _) => none
    | (q, none) => some (core q)

theorem finish_err {p q : DimacsParser} {e : ParserError} {bs : Bytes}
    (h : p.parseLoop bs = (q, some e)) : finish p bs = none := by simp [finish, h]

theorem finish_append {p q : DimacsParser} {xs ys : Bytes} (h : p.parseLoop xs = (q, none)) :
    finish p (xs ++ ys) = finish q ys := by simp [finish, loop_append_ok h]

theorem finish_append_err {p q : DimacsParser} {e : ParserError} {xs ys : Bytes}
    (h : p.parseLoop xs = (q, some e)) : finish p (xs ++ ys) = none :=
  finish_err (loop_append_err h)

/-- `eof` outside a header. -/
theorem eof_data {q : DimacsParser} (h : q.inHeader = false) :
    (match q.eof with
      | (_, some _) => none
      | (q, none) => some (core q)) =
    if q.finishLiteral.partialClause = [] then some (core q.finishLiteral) else none := by
  unfold eof; simp only [h, Bool.false_eq_true, if_false]
  by_cases hp : q.finishLiteral.partialClause = [] <;> simp [hp]

/-- Final step of the specification run. -/
def Core.done (c : Core) : Option Core := if c.partialClause = [] then some c else none

theorem word_eof {p : DimacsParser} (hp : Mid p) {w : Bytes}
    (hw : ∀ b ∈ w, isSep b = false)
    (hl : p.startOfLine = false ∨ (w.head? ≠ some 99 ∧ w.head? ≠ some 112)) :
    finish p w = (wordInts (if w = [45] then [] else w)).bind (fun ns => (ns.foldl Core.push (core p)).done) := by
  by_cases hm : w = [45]
  · subst hm
    rcases loop_bad hp (by simp) hw (by decide) hl with ⟨q, e, h⟩ | ⟨-, h⟩
    · simp [parseLoop, parseByte, hp.com, hp.neg, hp.inLit] at h
    · simp only [finish, h, if_true, wordInts, eof_data (q := { p with negateNextLit := true, startOfLine := false }) hp.hdr,
        finishLiteral_noop (p := { p with negateNextLit := true, startOfLine := false }) hp.inLit]
      rfl
  rw [if_neg hm]
  unfold wordInts
  by_cases hne : w = []
  · subst hne
    simp only [finish, parseLoop, eof_data hp.hdr, finishLiteral_noop hp.inLit, if_true]
    rfl
  · simp only [hne, if_false]
    cases hn : number? w with
    | some n =>
      obtain ⟨q, h1, h2, h3, h4, ⟨neg, pl, h5⟩, _⟩ := loop_number hp hn
      simp only [finish, h1, eof_data h4]
      have h6 : core q.finishLiteral = (core p).push n := by rw [h5, ← core_pushInt]; rfl
      have h7 : q.finishLiteral.partialClause = ((core p).push n).partialClause := by
        rw [← h6]; rfl
      rw [h6, h7]; rfl
    | none =>
      rcases loop_bad hp hne hw hn hl with ⟨q, e, h⟩ | ⟨h, _⟩
      · rw [finish_err h]; rfl
      · exact absurd h hm

theorem split_ne {p : UInt8 → Bool} (bs : Bytes) : split p bs ≠ [] := by
  rcases split_cases p bs with h | ⟨w, s, rest, rfl, hw, hs⟩
  · rw [split_none h]; simp
  · rw [split_sep hw hs]; simp

theorem dangles_ne {bs : Bytes} (h : dangles bs = true) : bs ≠ [] := by
  rintro rfl; simp [dangles, split] at h

theorem trim_none {bs : Bytes} (h : ∀ b ∈ bs, (b == 32) = false) : trim bs = if bs = [45] then [] else bs := by
  unfold trim dangles
  rw [split_none h]
  by_cases hb : bs = [45] <;> simp [hb]

theorem trim_sep {w rest : Bytes} (h : ∀ b ∈ w, (b == 32) = false) : trim (w ++ 32 :: rest) = w ++ 32 :: trim rest := by
  have e : dangles (w ++ 32 :: rest) = dangles rest := by
    unfold dangles
    rw [split_sep h (by rfl), List.getLast?_cons_of_ne_nil (split_ne rest)]
  unfold trim
  rw [e]
  split
  · rename_i hd
    rw [List.dropLast_append_of_ne_nil (by simp), List.dropLast_cons_of_ne_nil (dangles_ne hd)]
  · rfl

theorem trim_sub (bs : Bytes) : (∀ b ∈ trim bs, b ∈ bs) ∧ (trim bs = [] ∨ (trim bs).head? = bs.head?) := by
  unfold trim
  split
  · refine ⟨fun b hb => (List.dropLast_sublist bs).subset hb, ?_⟩
    match bs with
    | [] => simp
    | [x] => simp
    | x :: y :: ys => simp
  · exact ⟨fun b hb => hb, .inr rfl⟩

theorem data_last (n : Nat) : ∀ (bs : Bytes) (p : DimacsParser), bs.length ≤ n →
    Mid p → (∀ b ∈ bs, isEol b = false) →
    (p.startOfLine = false ∨ (bs.head? ≠ some 99 ∧ bs.head? ≠ some 112)) →
    finish p bs = ((words (trim bs)).mapM number?).bind (fun ns => (ns.foldl Core.push (core p)).done) := by
  induction n with
  | zero =>
    intro bs p hlen hp hb hl
    have : bs = [] := List.length_eq_zero_iff.1 (by omega)
    subst this
    exact word_eof hp (by simp) (by simp)
  | succ n ih =>
    intro bs p hlen hp hb hl
    rcases split_cases (fun b => b == 32) bs with h | ⟨w, s', rest, rfl, hw, hs2⟩
    · have ht : ∀ b ∈ trim bs, (b == 32) = false := fun b hb => h b ((trim_sub bs).1 b hb)
      rw [words_none ht, mapM_words_single, trim_none h]
      exact word_eof hp (by
        intro b hbb
        have h1 := h b hbb; have h2 := hb b hbb
        simp only [isEol] at h2; simp only [isSep, Bool.or_assoc, h2, Bool.or_false]; exact h1) hl
    · have hs2 : s' = 32 := by simpa using hs2
      subst hs2
      rw [trim_sep hw, words_sep hw, List.mapM_append, words_none hw, mapM_words_single]
      have hhead : p.startOfLine = false ∨ (w.head? ≠ some 99 ∧ w.head? ≠ some 112) := by
        rcases hl with hl | hl
        · exact .inl hl
        · right; cases w with
          | nil => simp
          | cons x w => simpa using hl
      have h1 := word_sep hp (w := w) (s := 32) (by
        intro b hbb
        have h1 := hw b hbb; have h2 := hb b (by simp [hbb])
        simp only [isEol] at h2; simp only [isSep, Bool.or_assoc, h2, Bool.or_false]; exact h1)
        (by rfl) hhead
      have hsplit : w ++ 32 :: rest = (w ++ [32]) ++ rest := by simp
      rw [hsplit]
      revert h1
      cases wordInts w with
      | none => intro ⟨q, e, h⟩; rw [finish_append_err h]; rfl
      | some ns1 =>
        intro ⟨q, h1, h2, h3, h4⟩
        rw [finish_append h1, ih rest q (by simp at hlen; omega) h2
          (fun b hbb => hb b (by simp [hbb])) (.inl (by simpa using h3)), h4]
        simp only [Option.pure_def, Option.bind_eq_bind, Option.bind_some]
        cases (words (trim rest)).mapM number? with
        | none => rfl
        | some ns2 => simp [List.foldl_append]

/-! ### comments -/

theorem parseByte_comment {p : DimacsParser} (hp : Mid p) (hl : p.startOfLine = true) :
    p.parseByte 99 = ({ p with inCommentOrHeader := true }, none) := by
  simp [parseByte, hp.com, hl]

theorem loop_comment (bs : Bytes) (p : DimacsParser) (hc : p.inCommentOrHeader = true)
    (hh : p.inHeader = false) (hb : ∀ b ∈ bs, isEol b = false) : p.parseLoop bs = (p, none) := by
  induction bs with
  | nil => rfl
  | cons b bs ih =>
    have h := hb b (by simp)
    simp only [isEol, Bool.or_eq_false_iff, beq_eq_false_iff_ne] at h
    have : p.parseByte b = (p, none) := by simp [parseByte, hc, hh, h]
    simp only [parseLoop, this]
    exact ih (fun b hbb => hb b (by simp [hbb]))

theorem comment_line {p : DimacsParser} (hp : Mid p) (hl : p.startOfLine = true) {bs : Bytes}
    (hb : ∀ b ∈ bs, isEol b = false) {s : UInt8} (hs : isEol s = true) :
    ∃ q, p.parseLoop ((99 :: bs) ++ [s]) = (q, none) ∧ Mid q ∧ q.startOfLine = true ∧
      core q = core p := by
  have h1 : p.parseLoop (99 :: bs) = ({ p with inCommentOrHeader := true }, none) := by
    simp only [parseLoop, parseByte_comment hp hl]
    exact loop_comment bs _ rfl hp.hdr hb
  rw [loop_append_ok h1]
  simp only [isEol, Bool.or_eq_true, beq_iff_eq] at hs
  rcases hs with rfl | rfl
  · exact ⟨{ p with lineNumber := p.lineNumber + 1, startOfLine := true },
      by simp [parseLoop, parseByte, hp.hdr, hp.com],
      ⟨hp.inLit, hp.neg, hp.plit, hp.com, hp.hdr, hp.err, hp.hl⟩, rfl, rfl⟩
  · exact ⟨{ p with startOfLine := true }, by simp [parseLoop, parseByte, hp.hdr, hp.com],
      ⟨hp.inLit, hp.neg, hp.plit, hp.com, hp.hdr, hp.err, hp.hl⟩, rfl, rfl⟩

theorem comment_last {p : DimacsParser} (hp : Mid p) (hl : p.startOfLine = true) {bs : Bytes}
    (hb : ∀ b ∈ bs, isEol b = false) : finish p (99 :: bs) = (core p).done := by
  have h1 : p.parseLoop (99 :: bs) = ({ p with inCommentOrHeader := true }, none) := by
    simp only [parseLoop, parseByte_comment hp hl]
    exact loop_comment bs _ rfl hp.hdr hb
  simp only [finish, h1]
  rw [eof_data (by exact hp.hdr), finishLiteral_noop (by exact hp.inLit)]
  rfl

/-! ### header -/

theorem isSpace_wsLen {b : UInt8} {bs : Bytes} (hb : b < 128) :
    wsLen (b :: bs) = if isSpace b then 1 else 0 := by
  have e1 : b ≠ 0xC2 := by rintro rfl; exact absurd hb (by decide)
  have e2 : b ≠ 0xE1 := by rintro rfl; exact absurd hb (by decide)
  have e3 : b ≠ 0xE2 := by rintro rfl; exact absurd hb (by decide)
  have e4 : b ≠ 0xE3 := by rintro rfl; exact absurd hb (by decide)
  unfold wsLen isSpace
  split <;> simp_all

theorem splitWs_eq (bs : Bytes) (h : ∀ b ∈ bs, b < 128) (cur : Bytes) :
    splitWs 0 cur bs =
      (match split isSpace bs with
        | [] => if cur = [] then [] else [cur]
        | w :: ws => (if cur ++ w = [] then [] else [cur ++ w]) ++ ws.filter (· ≠ [])) := by
  induction bs generalizing cur with
  | nil => simp [splitWs, split]
  | cons b bs ih =>
    have hlen := isSpace_wsLen (bs := bs) (h b (by simp))
    have ih' := ih (fun x hx => h x (by simp [hx]))
    unfold splitWs
    rw [hlen]
    by_cases hs : isSpace b = true
    · simp only [hs, if_true, split, List.append_nil]
      rw [ih' []]
      simp only [List.nil_append]
      congr 1
      cases split isSpace bs with
      | nil => rfl
      | cons w ws => by_cases hw : w = [] <;> simp [hw]
    · simp only [hs, split, Bool.false_eq_true, if_false]
      rw [ih' (cur ++ [b])]
      cases split isSpace bs with
      | nil => simp
      | cons w ws => simp

theorem parseDigits_eq (ds : Bytes) (n : Nat) (hn : n < 2 ^ 64) :
    parseDigits n ds =
      if ds.all isDigit = true ∧ ds.foldl (fun n d => 10 * n + (d.toNat - 48)) n < 2 ^ 64 then
        some (ds.foldl (fun n d => 10 * n + (d.toNat - 48)) n) else none := by
  induction ds generalizing n with
  | nil => simp [parseDigits, hn]
  | cons d ds ih =>
    unfold parseDigits
    by_cases hd : 48 ≤ d.toNat ∧ d.toNat ≤ 57
    · have hd' : isDigit d = true := by simpa [isDigit] using hd
      simp only [hd, and_self, if_true, List.all_cons, hd', Bool.true_and, List.foldl_cons]
      have hcomm : n * 10 = 10 * n := Nat.mul_comm _ _
      rw [hcomm]
      by_cases hv : 10 * n + (d.toNat - 48) < 2 ^ 64
      · rw [if_pos hv, ih _ hv]
      · rw [if_neg hv, if_neg]
        intro ⟨_, h⟩
        have := digitsValue_append ds (10 * n + (d.toNat - 48))
        omega
    · have hd' : isDigit d = false := by simpa [isDigit] using hd
      simp [hd, hd']

theorem parseUsize_eq (w : Bytes) : parseUsize w = bytesNumber? w := by
  unfold parseUsize bytesNumber?
  split
  · simp
  · rename_i bs
    simp only [List.head?_cons, if_true, List.tail_cons]
    by_cases hb : bs = []
    · simp [hb]
    · rw [if_neg hb, parseDigits_eq _ _ (by decide)]
      simp only [ne_eq, hb, not_false_eq_true, true_and]; rfl
  · rename_i h1 h2
    have hh : w.head? ≠ some 43 := by
      intro hx
      cases w with
      | nil => simp at hx
      | cons x xs => simp at hx; subst hx; exact h2 xs rfl
    rw [if_neg hh, parseDigits_eq _ _ (by decide)]
    have hb : w ≠ [] := fun h => h1 h
    simp only [ne_eq, hb, not_false_eq_true, true_and]; rfl

theorem parseHeaderLine_eq (p : DimacsParser) :
    match header? p.headerLine with
    | some (v, c) => p.parseHeaderLine =
        ({ p with header := some ⟨v, c⟩, formula := p.formula.setVarCount v }, none)
    | none => ∃ q e, p.parseHeaderLine = (q, some e) := by
  have hinv : ∃ q e, p.invalidHeader = (q, some e) := ⟨_, _, rfl⟩
  rw [header?_bytes]
  unfold bytesHeader? parseHeaderLine
  rw [maxVarCount_eq]
  generalize splitWs 0 [] (p.headerLine.drop 2) = ws
  by_cases ht : p.headerLine.take 2 = [112, 32]
  · simp only [ht, ne_eq, not_true_eq_false, if_false, if_true, parseUsize_eq]
    rcases ws with _ | ⟨cnf, ws⟩
    · exact hinv
    by_cases hc : cnf = [99, 110, 102]
    · subst hc
      simp only [not_true_eq_false, if_false, if_true]
      rcases ws with _ | ⟨v, ws⟩
      · exact hinv
      rcases ws with _ | ⟨c, ws⟩
      · simp only
        cases bytesNumber? v with
        | none => exact hinv
        | some v => simp only; split <;> exact ⟨_, _, rfl⟩
      rcases ws with _ | ⟨x, ws⟩
      · simp only [not_true_eq_false, if_false]
        cases bytesNumber? v with
        | none => exact hinv
        | some v =>
          by_cases hv : v ≤ 2 ^ 28
          · have hv' : ¬ v > 2 ^ 28 := by omega
            simp only [hv', if_false]
            cases bytesNumber? c with
            | none => exact hinv
            | some c => simp only [hv, if_true]
          · have hv' : v > 2 ^ 28 := by omega
            simp only [hv', if_true]
            cases bytesNumber? c with
            | none => exact ⟨_, _, rfl⟩
            | some c => simp only [hv, if_false]; exact ⟨_, _, rfl⟩
      · simp only [reduceCtorEq, not_false_eq_true, if_true]
        cases bytesNumber? v with
        | none => exact hinv
        | some v =>
          simp only
          split
          · exact ⟨_, _, rfl⟩
          · cases bytesNumber? c with
            | none => exact hinv
            | some c => exact hinv
    · simp only [hc, not_false_eq_true, if_true]
      split
      · rename_i h
        rcases ws with _ | ⟨v, _ | ⟨c, _ | ⟨x, ws⟩⟩⟩ <;> simp [hc] at h
      · exact hinv
  · simp only [ht, ne_eq, not_false_eq_true, if_true, if_false]; exact hinv

theorem loop_header (bs : Bytes) (p : DimacsParser) (hc : p.inCommentOrHeader = true)
    (hh : p.inHeader = true) (hb : ∀ b ∈ bs, isEol b = false) :
    p.parseLoop bs = ({ p with headerLine := p.headerLine ++ bs }, none) := by
  induction bs generalizing p with
  | nil => simp [parseLoop]
  | cons b bs ih =>
    have h := hb b (by simp)
    simp only [isEol, Bool.or_eq_false_iff, beq_eq_false_iff_ne] at h
    have : p.parseByte b = ({ p with headerLine := p.headerLine ++ [b] }, none) := by
      simp [parseByte, hc, hh, h]
    simp only [parseLoop, this]
    rw [ih { p with headerLine := p.headerLine ++ [b] } hc hh (fun b hbb => hb b (by simp [hbb]))]
    simp

theorem parseByte_p {p : DimacsParser} (hp : Mid p) (hl : p.startOfLine = true)
    (hh : p.header = none) :
    p.parseByte 112 =
      ({ p with inCommentOrHeader := true, inHeader := true, headerLine := [112] }, none) := by
  simp [parseByte, hp.com, hl, hh, hp.hl hh]

theorem parseByte_p_again {p : DimacsParser} (hp : Mid p) (hh : p.header.isSome = true) :
    ∃ q e, p.parseByte 112 = (q, some e) := by
  cases h : p.header with
  | none => simp [h] at hh
  | some x => simp [parseByte, hp.com, h]

/-- Effect of a header line. -/
def Core.headerLineStep (c : Core) (l : Bytes) : Option Core :=
  if c.header.isSome then none
  else match header? l with
    | some (v, n) => some { c with
        header := some ⟨v, n⟩, formula := c.formula.setVarCount v, headerLine := l }
    | none => none

theorem header_line {p : DimacsParser} (hp : Mid p) (hl : p.startOfLine = true) {bs : Bytes}
    (hb : ∀ b ∈ bs, isEol b = false) {s : UInt8} (hs : isEol s = true) :
    match (core p).headerLineStep (112 :: bs) with
    | some c => ∃ q, p.parseLoop ((112 :: bs) ++ [s]) = (q, none) ∧ Mid q ∧ q.startOfLine = true ∧
        core q = c
    | none => ∃ q e, p.parseLoop ((112 :: bs) ++ [s]) = (q, some e) := by
  unfold Core.headerLineStep
  cases hh : p.header with
  | some x =>
    have : (core p).header.isSome = true := by simp [core, hh]
    rw [if_pos this]
    obtain ⟨q, e, h⟩ := parseByte_p_again hp (by simp [hh])
    exact ⟨q, e, by simp [parseLoop, h]⟩
  | none =>
    have : ¬ (core p).header.isSome = true := by simp [core, hh]
    rw [if_neg this]
    have h1 : p.parseLoop (112 :: bs) = ({ p with
        inCommentOrHeader := true, inHeader := true, headerLine := 112 :: bs }, none) := by
      simp only [parseLoop, parseByte_p hp hl hh]
      rw [loop_header bs _ rfl rfl hb]; simp
    rw [loop_append_ok h1]
    -- state handed to `parse_header_line`
    have key : ∀ line : Nat, _ := fun line => parseHeaderLine_eq { p with
              lineNumber := line, inCommentOrHeader := true, inHeader := false
              headerLine := 112 :: bs }
    simp only [isEol, Bool.or_eq_true, beq_iff_eq] at hs
    rcases hs with rfl | rfl
    · have key := key (p.lineNumber + 1)
      simp only [parseLoop, parseByte, if_true, true_or, true_and] at key ⊢
      revert key
      cases header? (112 :: bs) with
      | none => intro ⟨q, e, h⟩; exact ⟨q, e, by rw [h]⟩
      | some vc =>
        intro h
        simp only at h ⊢
        rw [h]
        exact ⟨_, rfl, ⟨hp.inLit, hp.neg, hp.plit, rfl, rfl, hp.err, by simp⟩, rfl, rfl⟩
    · have key := key p.lineNumber
      have e : ((13 : UInt8) = 10) = False := by simp
      simp only [parseLoop, parseByte, e, if_true, or_true, true_and, if_false] at key ⊢
      revert key
      cases header? (112 :: bs) with
      | none => intro ⟨q, e, h⟩; exact ⟨q, e, by rw [h]⟩
      | some vc =>
        intro h
        simp only at h ⊢
        rw [h]
        exact ⟨_, rfl, ⟨hp.inLit, hp.neg, hp.plit, rfl, rfl, hp.err, by simp⟩, rfl, rfl⟩

theorem header_last {p : DimacsParser} (hp : Mid p) (hl : p.startOfLine = true) {bs : Bytes}
    (hb : ∀ b ∈ bs, isEol b = false) :
    finish p (112 :: bs) = ((core p).headerLineStep (112 :: bs)).bind Core.done := by
  unfold Core.headerLineStep
  cases hh : p.header with
  | some x =>
    have : (core p).header.isSome = true := by simp [core, hh]
    rw [if_pos this]
    obtain ⟨q, e, h⟩ := parseByte_p_again hp (by simp [hh])
    rw [finish_err (q := q) (e := e) (by simp [parseLoop, h])]; rfl
  | none =>
    have : ¬ (core p).header.isSome = true := by simp [core, hh]
    rw [if_neg this]
    have h1 : p.parseLoop (112 :: bs) = ({ p with
        inCommentOrHeader := true, inHeader := true, headerLine := 112 :: bs }, none) := by
      simp only [parseLoop, parseByte_p hp hl hh]
      rw [loop_header bs _ rfl rfl hb]; simp
    simp only [finish, h1]
    have := parseHeaderLine_eq { p with
              inCommentOrHeader := true, inHeader := true
              headerLine := 112 :: bs }
    simp only at this
    unfold eof
    simp only [if_true]
    revert this
    cases header? (112 :: bs) with
    | none => intro ⟨q, e, h⟩; rw [h]; rfl
    | some vc =>
      intro h
      simp only at h
      rw [h]
      simp only [Option.bind_some, Core.done]
      rw [finishLiteral_noop (by exact hp.inLit)]
      simp only [core]
      by_cases hpc : p.partialClause = []
      · simp [hpc]
      · simp [hpc]

/-! ### whole documents -/

/-- One line. -/
def Core.line (c : Core) (l : Bytes) : Option Core :=
  if l.head? = some 99 then some c
  else if l.head? = some 112 then c.headerLineStep l
  else ((words l).mapM number?).map (fun ns => ns.foldl Core.push c)

/-- All lines. -/
def Core.run (c : Core) : List Bytes → Option Core
  | [] => c.done
  | l :: ls => (c.line l).bind (fun c => c.run ls)

theorem trimDoc_last {bs : Bytes} (h : lines bs = [bs]) : trimDoc bs =
    if bs.head? ≠ some 99 ∧ bs.head? ≠ some 112 ∧ dangles bs then bs.dropLast else bs := by
  unfold trimDoc; rw [h]; rfl

theorem trimDoc_sep {w rest : Bytes} {s : UInt8} (h : ∀ b ∈ w, (b == 10 || b == 13) = false) (hs : (s == 10 || s == 13) = true) :
    trimDoc (w ++ s :: rest) = w ++ s :: trimDoc rest := by
  have e : (lines (w ++ s :: rest)).getLast? = (lines rest).getLast? := by
    unfold lines; rw [split_sep h hs, List.getLast?_cons_of_ne_nil (split_ne rest)]
  unfold trimDoc
  rw [e]
  split
  · rename_i l hl
    split
    · rename_i hd
      have : rest ≠ [] := by
        rintro rfl
        simp [lines, split] at hl
        subst hl
        exact dangles_ne hd.2.2 rfl
      rw [List.dropLast_append_of_ne_nil (by simp), List.dropLast_cons_of_ne_nil this]
    · rfl
  · rfl

theorem finish_doc (n : Nat) : ∀ (bs : Bytes) (p : DimacsParser), bs.length ≤ n → Mid p →
    p.startOfLine = true →
    finish p bs = (core p).run (lines (trimDoc bs)) := by
  induction n with
  | zero =>
    intro bs p hlen hp hl
    have : bs = [] := List.length_eq_zero_iff.1 (by omega)
    subst this
    rw [data_last 0 [] p (by simp) hp (by simp) (by simp)]
    simp [lines, trimDoc, trim, dangles, split, Core.run, Core.line, words]
  | succ n ih =>
    intro bs p hlen hp hl
    rcases split_cases (fun b => b == 10 || b == 13) bs with h | ⟨w, s, rest, rfl, hw, hs⟩
    · have hlines : lines bs = [bs] := split_none h
      by_cases hc : bs.head? = some 99
      · rw [trimDoc_last hlines, if_neg (by simp [hc]), hlines]
        simp only [Core.run, Core.line]
        rw [if_pos hc]
        obtain ⟨x, hx⟩ : ∃ x, bs = 99 :: x := by
          cases bs with
          | nil => simp at hc
          | cons y x => simp at hc; exact ⟨x, by rw [hc]⟩
        subst hx
        rw [comment_last hp hl (fun b hb => h b (by simp [hb]))]; rfl
      · by_cases hpp : bs.head? = some 112
        · rw [trimDoc_last hlines, if_neg (by simp [hpp]), hlines]
          simp only [Core.run, Core.line]
          rw [if_neg hc, if_pos hpp]
          obtain ⟨x, hx⟩ : ∃ x, bs = 112 :: x := by
            cases bs with
            | nil => simp at hpp
            | cons y x => simp at hpp; exact ⟨x, by rw [hpp]⟩
          subst hx
          rw [header_last hp hl (fun b hb => h b (by simp [hb]))]
        · have ht : trimDoc bs = trim bs := by
            rw [trimDoc_last hlines]; unfold trim; simp [hc, hpp]
          have hl2 : lines (trim bs) = [trim bs] := split_none fun b hb => h b ((trim_sub bs).1 b hb)
          rw [ht, hl2, data_last _ bs p (Nat.le_refl _) hp h (.inr ⟨hc, hpp⟩)]
          simp only [Core.run, Core.line]
          have hh : (trim bs).head? ≠ some 99 ∧ (trim bs).head? ≠ some 112 := by
            rcases (trim_sub bs).2 with e | e
            · rw [e]; simp
            · rw [e]; exact ⟨hc, hpp⟩
          rw [if_neg hh.1, if_neg hh.2]
          cases (words (trim bs)).mapM number? <;> rfl
    · have hlines : lines (trimDoc (w ++ s :: rest)) = w :: lines (trimDoc rest) := by
        rw [trimDoc_sep hw hs]; exact split_sep hw hs
      have hlen' : rest.length ≤ n := by simp at hlen; omega
      have hsplit : w ++ s :: rest = (w ++ [s]) ++ rest := by simp
      rw [hlines, hsplit]
      simp only [Core.run, Core.line]
      by_cases hc : w.head? = some 99
      · rw [if_pos hc]
        obtain ⟨x, hx⟩ : ∃ x, w = 99 :: x := by
          cases w with
          | nil => simp at hc
          | cons y x => simp at hc; exact ⟨x, by rw [hc]⟩
        subst hx
        obtain ⟨q, h1, h2, h3, h4⟩ := comment_line (bs := x) hp hl (fun b hb => hw b (by simp [hb])) hs
        rw [finish_append h1, ih rest q hlen' h2 h3, h4]; rfl
      · rw [if_neg hc]
        by_cases hpp : w.head? = some 112
        · rw [if_pos hpp]
          obtain ⟨x, hx⟩ : ∃ x, w = 112 :: x := by
            cases w with
            | nil => simp at hpp
            | cons y x => simp at hpp; exact ⟨x, by rw [hpp]⟩
          subst hx
          have := header_line (bs := x) hp hl (fun b hb => hw b (by simp [hb])) hs
          revert this
          cases (core p).headerLineStep (112 :: x) with
          | none => intro ⟨q, e, h⟩; rw [finish_append_err h]; rfl
          | some c =>
            intro ⟨q, h1, h2, h3, h4⟩
            rw [finish_append h1, ih rest q hlen' h2 h3, h4]; rfl
        · rw [if_neg hpp]
          have := data_line _ w p s (Nat.le_refl _) hp hw hs (.inr ⟨hc, hpp⟩)
          revert this
          cases (words w).mapM number? with
          | none => intro ⟨q, e, h⟩; rw [finish_append_err h]; rfl
          | some ns =>
            intro ⟨q, h1, h2, h3, h4⟩
            rw [finish_append h1, ih rest q hlen' h2 h3, h4]; rfl

/-! ### inputs with a lone minus sign at the end -/

theorem split_last {p : UInt8 → Bool} (n : Nat) : ∀ (bs w : Bytes), bs.length ≤ n → (split p bs).getLast? = some w → w ≠ [] →
    bs.getLast? = w.getLast? := by
  induction n with
  | zero =>
    intro bs w hlen h hw
    obtain rfl : bs = [] := List.length_eq_zero_iff.1 (by omega)
    simp [split] at h
    exact absurd h.symm (by simpa using hw)
  | succ n ih =>
    intro bs w hlen h hw
    rcases split_cases p bs with h1 | ⟨v, s, rest, rfl, hv, hs⟩
    · rw [split_none h1] at h
      simp at h; rw [h]
    · rw [split_sep hv hs, List.getLast?_cons_of_ne_nil (split_ne rest)] at h
      have := ih rest w (by simp at hlen; omega) h hw
      rw [← this, List.getLast?_append]
      cases rest with
      | nil => simp [split] at h; exact absurd h.symm (by simpa using hw)
      | cons y ys => simp [List.getLast?_cons]

/-- When there is something to take away from the input. -/
theorem trimDoc_cases (bs : Bytes) : trimDoc bs = bs ∨
    ∃ l ∈ lines bs, l.head? ≠ some 99 ∧ l.head? ≠ some 112 ∧ [45] ∈ words l ∧ bs = trimDoc bs ++ [45] := by
  unfold trimDoc
  split
  · rename_i l hl
    split
    · rename_i hd
      obtain ⟨h1, h2, h3⟩ := hd
      refine .inr ⟨l, List.mem_of_getLast? hl, h1, h2, ?_, ?_⟩
      · unfold dangles at h3
        simp only [decide_eq_true_eq] at h3
        unfold words
        rw [List.mem_filter]
        exact ⟨List.mem_of_getLast? h3, by simp⟩
      · have e1 : l.getLast? = some 45 := by
          unfold dangles at h3
          simp only [decide_eq_true_eq] at h3
          have := split_last _ l [45] (Nat.le_refl _) h3 (by simp)
          simpa using this
        have e2 := split_last _ bs l (Nat.le_refl _) hl (dangles_ne h3)
        rw [e1] at e2
        have hne : bs ≠ [] := by rintro rfl; simp at e2
        have := List.dropLast_append_getLast hne
        rw [List.getLast?_eq_some_getLast hne] at e2
        rw [← Option.some.inj e2, this]
    · exact .inl rfl
  · exact .inl rfl

theorem trimDoc_last_byte {bs : Bytes} (h : bs.getLast? ≠ some 45) : trimDoc bs = bs := by
  rcases trimDoc_cases bs with e | ⟨-, -, -, -, -, e⟩
  · exact e
  · rw [e] at h; simp at h

theorem trimDoc_doc {bs : Bytes} {d : Doc} (h : doc? bs = some d) : trimDoc bs = bs := by
  rcases trimDoc_cases bs with e | ⟨l, hl, h1, h2, h3, -⟩
  · exact e
  · exfalso
    unfold doc? at h
    simp only [Option.bind_eq_bind, Option.bind_eq_some_iff] at h
    obtain ⟨ns, hn, -⟩ := h
    have hm : [45] ∈ ((lines bs).filter (fun l => l.head? ≠ some 99 ∧ l.head? ≠ some 112)).flatMap words := by
      rw [List.mem_flatMap]
      exact ⟨l, by rw [List.mem_filter]; exact ⟨hl, by simp [h1, h2]⟩, h3⟩
    have key : ∀ (ws : List Bytes) ns, ws.mapM number? = some ns → [45] ∉ ws := by
      intro ws
      induction ws with
      | nil => simp
      | cons w ws ih =>
        intro ns hns hmem
        simp only [List.mapM_cons, Option.bind_eq_bind, Option.bind_eq_some_iff] at hns
        obtain ⟨n, hn1, ns', hn2, -⟩ := hns
        rcases List.mem_cons.1 hmem with rfl | hmem
        · cases hn1
        · exact ih ns' hn2 hmem
    exact key _ _ hn hm

end Varisat.DimacsParser
