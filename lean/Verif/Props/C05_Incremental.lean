import Verif.Proof.DimacsRun
/-!
# C05: incremental parsing hands every clause over exactly once
# C07: the header is enforced
-/
namespace Varisat.C05
open DimacsParser

/-- `p` is `p'` after handing over the clauses `pre`. -/
def Sim (pre : List (List Lit)) (p p' : DimacsParser) : Prop :=
  p' = { p with formula := p'.formula } ∧ p'.formula.varCount = p.formula.varCount ∧
    ∃ cs, C02.Repr p.formula cs ∧ C02.Repr p'.formula (pre ++ cs)

theorem Sim.finishLiteral {pre p p'} (h : Sim pre p p') :
    Sim pre p.finishLiteral p'.finishLiteral := by
  obtain ⟨h1, h2, cs, h3, h4⟩ := h
  generalize p'.formula = f' at *
  subst h1
  unfold DimacsParser.finishLiteral
  simp only
  split
  · split
    · exact ⟨rfl, by simp [C02.addClause_varCount, h2], cs ++ [p.partialClause],
        C02.addClause_repr h3 _, by rw [← List.append_assoc]; exact C02.addClause_repr h4 _⟩
    · exact ⟨rfl, h2, cs, h3, h4⟩
  · exact ⟨rfl, h2, cs, h3, h4⟩

theorem Sim.parseHeaderLine {pre p p'} (h : Sim pre p p') :
    Sim pre p.parseHeaderLine.1 p'.parseHeaderLine.1 ∧
    p.parseHeaderLine.2 = p'.parseHeaderLine.2 := by
  obtain ⟨h1, h2, cs, h3, h4⟩ := h
  generalize p'.formula = f' at *
  subst h1
  unfold DimacsParser.parseHeaderLine invalidHeader
  simp only
  repeat' split
  all_goals first
    | exact ⟨⟨rfl, h2, cs, h3, h4⟩, rfl⟩
    | (refine ⟨⟨rfl, ?_, cs, h3, h4⟩, rfl⟩; simp only [CnfFormula.setVarCount, h2])

/-- Sim is preserved by changing both parsers alike outside the formula. -/
theorem Sim.congr {pre p p'} (h : Sim pre p p') (q q' : DimacsParser)
    (hq : q.formula = p.formula) (hq' : q'.formula = p'.formula)
    (e : q' = { q with formula := q'.formula }) : Sim pre q q' := by
  obtain ⟨h1, h2, cs, h3, h4⟩ := h
  exact ⟨e, by rw [hq, hq', h2], cs, by rw [hq]; exact h3, by rw [hq']; exact h4⟩

theorem Sim.parseByte {pre p p'} (h : Sim pre p p') (b : UInt8) :
    Sim pre (p.parseByte b).1 (p'.parseByte b).1 ∧ (p.parseByte b).2 = (p'.parseByte b).2 := by
  -- after counting the line
  have h' : Sim pre (if b = 10 then { p with lineNumber := p.lineNumber + 1 } else p)
      (if b = 10 then { p' with lineNumber := p'.lineNumber + 1 } else p') := by
    split
    · refine h.congr _ _ rfl rfl ?_
      have := h.1
      rw [this]
    · exact h
  unfold DimacsParser.parseByte
  generalize (if b = 10 then { p with lineNumber := p.lineNumber + 1 } else p) = p at *
  generalize (if b = 10 then { p' with lineNumber := p'.lineNumber + 1 } else p') = p' at *
  clear h
  have hf := h'.finishLiteral
  have hh : Sim pre { p with inHeader := false } { p' with inHeader := false } :=
    h'.congr _ _ rfl rfl (by have := h'.1; rw [this])
  have hh := hh.parseHeaderLine
  obtain ⟨e, -⟩ := id h'
  generalize p'.formula = f' at e
  subst e
  simp only at hh ⊢
  split
  · split
    · obtain ⟨g1, g2⟩ := hh
      revert g1 g2
      generalize DimacsParser.parseHeaderLine _ = rx
      generalize DimacsParser.parseHeaderLine _ = rx'
      obtain ⟨r, x⟩ := rx
      obtain ⟨r', x'⟩ := rx'
      simp only
      rintro g1 rfl
      cases x with
      | none => exact ⟨g1.congr _ _ rfl rfl (by have := g1.1; rw [this]), rfl⟩
      | some e => exact ⟨g1, rfl⟩
    · exact ⟨h'.congr _ _ rfl rfl rfl, rfl⟩
  · split
    · split
      · exact ⟨h'.congr _ _ rfl rfl rfl, rfl⟩
      · exact ⟨h', rfl⟩
    · repeat' split
      all_goals first
        | exact ⟨h'.congr _ _ rfl rfl rfl, rfl⟩
        | exact ⟨hf.congr _ _ rfl rfl (by have := hf.1; rw [this]), rfl⟩

theorem Sim.parseLoop {pre p p'} (h : Sim pre p p') (bs : Bytes) :
    Sim pre (p.parseLoop bs).1 (p'.parseLoop bs).1 ∧ (p.parseLoop bs).2 = (p'.parseLoop bs).2 := by
  induction bs generalizing p p' with
  | nil => exact ⟨h, rfl⟩
  | cons b bs ih =>
    have hb := h.parseByte b
    simp only [DimacsParser.parseLoop]
    revert hb
    rcases p.parseByte b with ⟨q, x⟩
    rcases p'.parseByte b with ⟨q', x'⟩
    simp only
    rintro ⟨g1, rfl⟩
    cases x with
    | none => exact ih g1
    | some e => exact ⟨g1, rfl⟩

theorem Sim.parseChunk {pre p p'} (h : Sim pre p p') (bs : Bytes) :
    Sim pre (p.parseChunk bs).1 (p'.parseChunk bs).1 ∧
    (p.parseChunk bs).2 = (p'.parseChunk bs).2 := by
  unfold DimacsParser.parseChunk
  have e : p'.error = p.error := by rw [h.1]
  rw [e]
  split
  · exact ⟨h, rfl⟩
  · exact h.parseLoop bs

theorem Sim.eof {pre p p'} (h : Sim pre p p') :
    Sim pre p.eof.1 p'.eof.1 ∧ p.eof.2 = p'.eof.2 := by
  unfold DimacsParser.eof
  have hk : Sim pre (if p.inHeader then p.parseHeaderLine else (p, none)).1
      (if p'.inHeader then p'.parseHeaderLine else (p', none)).1 ∧
      (if p.inHeader then p.parseHeaderLine else (p, none)).2 =
      (if p'.inHeader then p'.parseHeaderLine else (p', none)).2 := by
    have e : p'.inHeader = p.inHeader := by rw [h.1]
    rw [e]
    split
    · exact h.parseHeaderLine
    · exact ⟨h, rfl⟩
  revert hk
  generalize (if p.inHeader then p.parseHeaderLine else (p, none)) = a
  generalize (if p'.inHeader then p'.parseHeaderLine else (p', none)) = a'
  obtain ⟨q, x⟩ := a
  obtain ⟨q', x'⟩ := a'
  simp only
  rintro ⟨g1, rfl⟩
  cases x with
  | some e => exact ⟨g1, rfl⟩
  | none =>
    have hf := g1.finishLiteral
    have e1 : q'.finishLiteral.partialClause = q.finishLiteral.partialClause := by rw [hf.1]
    have e2 : q'.finishLiteral.lineNumber = q.finishLiteral.lineNumber := by rw [hf.1]
    simp only [e1, e2]
    split <;> exact ⟨hf, rfl⟩

theorem Sim.checkHeader {pre p p'} (h : Sim pre p p') : p.checkHeader = p'.checkHeader := by
  obtain ⟨h1, h2, -⟩ := h
  generalize p'.formula = f' at *
  subst h1
  simp only [DimacsParser.checkHeader, h2]

theorem Sim.take {pre p p'} (h : Sim pre p p') :
    ∃ cs, p.takeFormula.2.iter = some cs ∧ Sim (pre ++ cs) p.takeFormula.1 p' := by
  obtain ⟨h1, h2, cs, h3, h4⟩ := h
  refine ⟨cs, h3, ?_, ?_, [], by simp [takeFormula, C02.Repr, CnfFormula.iter, CnfFormula.setVarCount,
    CnfFormula.new], by simpa using h4⟩
  · rw [h1]; rfl
  · rw [h2]; simp [takeFormula, CnfFormula.setVarCount, CnfFormula.new]

theorem sim_run (chunks : List (Bytes × Bool)) (takeEnd : Bool) (pre : List (List Lit))
    (p p' : DimacsParser) (h : Sim pre p p') :
    let r := parseIncremental p chunks takeEnd
    let r' := parseIncremental p' (chunks.map (fun c => (c.1, false))) false
    ∃ css, r.2.1.mapM CnfFormula.iter = some css ∧ Sim (pre ++ css.flatten) r.1 r'.1 ∧
      r.2.2 = r'.2.2 ∧ (takeEnd = true → r.2.2 = none → r.1.formula.iter = some []) := by
  induction chunks generalizing pre p p' with
  | nil =>
    simp only [parseIncremental, List.map_nil]
    have he := h.eof
    revert he
    rcases p.eof with ⟨q, x⟩
    rcases p'.eof with ⟨q', x'⟩
    simp only
    rintro ⟨g1, rfl⟩
    cases x with
    | some e => exact ⟨[], by simp, by simpa using g1, rfl, by simp⟩
    | none =>
      cases takeEnd with
      | false => exact ⟨[], by simp, by simpa using g1, g1.checkHeader, by simp⟩
      | true =>
        obtain ⟨cs, t1, t2⟩ := g1.take
        refine ⟨[cs], by simp [t1], by simpa using t2, t2.checkHeader, fun _ _ => ?_⟩
        simp [takeFormula, CnfFormula.iter, CnfFormula.setVarCount, CnfFormula.new]
  | cons c chunks ih =>
    obtain ⟨data, take⟩ := c
    simp only [parseIncremental, List.map_cons]
    have hc := h.parseChunk data
    revert hc
    rcases p.parseChunk data with ⟨q, x⟩
    rcases p'.parseChunk data with ⟨q', x'⟩
    simp only
    rintro ⟨g1, rfl⟩
    cases x with
    | some e => exact ⟨[], by simp, by simpa using g1, rfl, by simp⟩
    | none =>
      cases take with
      | false =>
        simp only [Bool.false_eq_true, if_false]
        exact ih pre q q' g1
      | true =>
        obtain ⟨cs, t1, t2⟩ := g1.take
        obtain ⟨css, k1, k2, k3, k4⟩ := ih (pre ++ cs) q.takeFormula.1 q' t2
        simp only [if_true, Bool.false_eq_true, if_false]
        refine ⟨cs :: css, by simp [t1, k1], by simpa using k2, k3, k4⟩

/-! ## Property theorems -/

/-- **C05.** Any schedule of takes between chunks gives the same error (or success, including the
header check) as parsing without taking anything; the clauses taken, followed by the clauses left
in the parser, are exactly the clauses of the uninterrupted parse, in order; header and variable
count agree. With a take at the end nothing is left over. -/
theorem exactly_once (chunks : List (Bytes × Bool)) (takeEnd : Bool) :
    let r := parseIncremental new chunks takeEnd
    let r' := parseIncremental new (chunks.map (fun c => (c.1, false))) false
    r.2.2 = r'.2.2 ∧ r.1.header = r'.1.header ∧ r.1.formula.varCount = r'.1.formula.varCount ∧
    ∃ taken rest, r.2.1.mapM CnfFormula.iter = some taken ∧ r.1.formula.iter = some rest ∧
      r'.1.formula.iter = some (taken.flatten ++ rest) ∧
      (takeEnd = true → r.2.2 = none → rest = []) := by
  intro r r'
  obtain ⟨css, h1, h2, h3, h4⟩ := sim_run chunks takeEnd [] new new
    ⟨rfl, rfl, [], by rfl, by rfl⟩
  obtain ⟨g1, g2, rest, g3, g4⟩ := h2
  refine ⟨h3, ?_, g2.symm, css, rest, h1, g3, g4, fun ht he => ?_⟩
  · have : r'.1 = { r.1 with formula := r'.1.formula } := g1
    rw [this]
  · have := h4 ht he
    have g3' : r.1.formula.iter = some rest := g3
    rw [this] at g3'
    simpa using g3'.symm

/-- The same compared with `parse` on all bytes at once. -/
theorem taken_is_parse (chunks : List (Bytes × Bool)) (p : DimacsParser) (fs : List CnfFormula)
    (h : parseIncremental new chunks true = (p, fs, none)) :
    ∃ f css, parse [(chunks.map (·.1)).flatten] = .ok f ∧ fs.mapM CnfFormula.iter = some css ∧
      f.iter = some css.flatten := by
  obtain ⟨h1, _, _, css, rest, h4, h5, h6, h7⟩ := exactly_once chunks true
  rw [h] at h1 h4 h5 h7
  have hrest := h7 rfl rfl
  subst hrest
  have e : chunks.map (fun c => (c.1, false)) = (chunks.map (·.1)).map (·, false) := by
    simp
  rw [e, parseIncremental_whole _ new rfl] at h1 h6
  unfold parse
  rw [parseIncremental_whole [_] new rfl]
  simp only [List.flatten_cons, List.flatten_nil, List.append_nil]
  revert h1 h6
  generalize whole new (chunks.map (·.1)).flatten = w
  obtain ⟨q, fs', x⟩ := w
  simp only
  rintro rfl h6
  exact ⟨_, css, rfl, h4, by simpa [takeFormula] using h6⟩

example : let r := parseIncremental new [(ascii "1 0 2", true), (ascii "3 0 -", false),
      (ascii "1 0 4", true), (ascii " 0", false)] true
    r.2.2 = none ∧ r.2.1.mapM CnfFormula.iter = some [[[⟨0⟩]], [[⟨44⟩], [⟨1⟩]], [[⟨6⟩]]] := by
  decide +kernel

end Varisat.C05

namespace Varisat.C07
open DimacsParser

/-- Invariant: counters describe the formula. -/
def Inv (p : DimacsParser) : Prop :=
  ∃ cs, C02.Repr p.formula cs ∧ cs.length = p.clauseCount ∧
    (∀ c ∈ cs, ∀ l ∈ c, l.var < p.formula.varCount)

theorem Inv.finishLiteral {p} (h : Inv p) : Inv p.finishLiteral := by
  obtain ⟨cs, h1, h2, h3⟩ := h
  unfold DimacsParser.finishLiteral
  split
  · split
    · refine ⟨cs ++ [p.partialClause], C02.addClause_repr h1 _, by simp [h2], ?_⟩
      intro c hc l hl
      simp only [C02.addClause_varCount]
      simp only [List.mem_append, List.mem_singleton] at hc
      rcases hc with hc | rfl
      · have := h3 c hc l hl; omega
      · have := C02.le_varsOf hl; omega
    · exact ⟨cs, h1, h2, h3⟩
  · exact ⟨cs, h1, h2, h3⟩

theorem Inv.congr {p} (h : Inv p) (q : DimacsParser) (h1 : q.formula = p.formula)
    (h2 : q.clauseCount = p.clauseCount) : Inv q := by
  unfold Inv at *; rw [h1, h2]; exact h

theorem Inv.parseHeaderLine {p} (h : Inv p) : Inv p.parseHeaderLine.1 := by
  obtain ⟨cs, h1, h2, h3⟩ := h
  unfold DimacsParser.parseHeaderLine invalidHeader
  repeat' split
  all_goals first
    | exact ⟨cs, h1, h2, h3⟩
    | (refine ⟨cs, h1, h2, ?_⟩
       intro c hc l hl
       have := h3 c hc l hl
       simp only [CnfFormula.setVarCount]; omega)

theorem Inv.parseByte {p} (h : Inv p) (b : UInt8) : Inv (p.parseByte b).1 := by
  have h' : Inv (if b = 10 then { p with lineNumber := p.lineNumber + 1 } else p) := by
    split
    · exact h.congr _ rfl rfl
    · exact h
  unfold DimacsParser.parseByte
  generalize (if b = 10 then { p with lineNumber := p.lineNumber + 1 } else p) = p at *
  have hf := h'.finishLiteral
  have hh := (h'.congr { p with inHeader := false } rfl rfl).parseHeaderLine
  simp only
  split
  · split
    · revert hh
      rcases DimacsParser.parseHeaderLine { p with inHeader := false } with ⟨r, _ | e⟩
      · exact fun hh => Inv.congr hh _ rfl rfl
      · exact fun hh => hh
    · exact h'.congr _ rfl rfl
  · split
    · split
      · exact h'.congr _ rfl rfl
      · exact h'
    · repeat' split
      all_goals first
        | exact h'.congr _ rfl rfl
        | exact hf.congr _ rfl rfl

theorem Inv.parseLoop {p} (h : Inv p) (bs : Bytes) : Inv (p.parseLoop bs).1 := by
  induction bs generalizing p with
  | nil => exact h
  | cons b bs ih =>
    have hb := h.parseByte b
    simp only [DimacsParser.parseLoop]
    revert hb
    rcases p.parseByte b with ⟨q, _ | e⟩
    · exact ih
    · exact id

theorem Inv.eof {p} (h : Inv p) : Inv p.eof.1 := by
  unfold DimacsParser.eof
  have hk : Inv (if p.inHeader then p.parseHeaderLine else (p, none)).1 := by
    split
    · exact h.parseHeaderLine
    · exact h
  revert hk
  generalize (if p.inHeader then p.parseHeaderLine else (p, none)) = a
  obtain ⟨q, _ | e⟩ := a
  · intro hk
    have := hk.finishLiteral
    simp only
    split <;> exact this
  · exact id

/-- **C07.** For every byte string, every chunking and every schedule of takes: if parsing succeeds
and a header was read, then the total number of clauses (taken and left) is the announced one, the
variable count is the announced one, and no literal of any clause exceeds it. -/
theorem header_enforced (chunks : List (Bytes × Bool)) (takeEnd : Bool) (p : DimacsParser)
    (fs : List CnfFormula) (h : DimacsHeader)
    (hr : parseIncremental new chunks takeEnd = (p, fs, none)) (hh : p.header = some h) :
    ∃ taken rest, fs.mapM CnfFormula.iter = some taken ∧ p.formula.iter = some rest ∧
      (taken.flatten ++ rest).length = h.clauseCount ∧ p.formula.varCount = h.varCount ∧
      ∀ c ∈ taken.flatten ++ rest, ∀ l ∈ c, l.var < h.varCount := by
  obtain ⟨h1, h2, h3, taken, rest, h4, h5, h6, _⟩ := C05.exactly_once chunks takeEnd
  rw [hr] at h1 h2 h3 h4 h5
  have e : chunks.map (fun c => (c.1, false)) = (chunks.map (·.1)).map (·, false) := by simp
  rw [e, parseIncremental_whole _ new rfl] at h1 h2 h3 h6
  refine ⟨taken, rest, h4, h5, ?_⟩
  generalize (chunks.map (·.1)).flatten = bs at h1 h2 h3 h6
  have hi := Inv.parseLoop (p := new) ⟨[], rfl, rfl, by simp⟩ bs
  dsimp only at h1 h2 h3 h6
  unfold whole at h1 h2 h3 h6
  generalize new.parseLoop bs = pl at h1 h2 h3 h6 hi
  revert h1 h2 h3 h6 hi
  rcases pl with ⟨q, _ | e⟩
  · simp only
    intro h1 h2 h3 h6 hi
    have hi := hi.eof
    generalize q.eof = qe at h1 h2 h3 h6 hi
    revert h1 h2 h3 h6 hi
    rcases qe with ⟨q, _ | e⟩
    · simp only
      intro h1 h2 h3 h6 ⟨cs, g1, g2, g3⟩
      unfold C02.Repr at g1
      rw [g1] at h6
      simp only [Option.some.injEq] at h6
      subst h6
      rw [hh] at h2
      simp only [checkHeader, ← h2] at h1
      split at h1
      · simp at h1
      · split at h1
        · simp at h1
        · rename_i k1 k2
          have k1 : q.formula.varCount = h.varCount := by simpa using k1
          have k2 : q.clauseCount = h.clauseCount := by simpa using k2
          exact ⟨by omega, by omega, fun c hc l hl => by rw [← k1]; exact g3 c hc l hl⟩
    · simp
  · simp

example : let r := parseIncremental new [(ascii "p cnf 3 2
1 -3 0", true), (ascii " 2 0", false)] false
    r.2.2 = none ∧ r.1.header = some ⟨3, 2⟩ := by decide

/-- Violations are reported (tests of the rejecting direction; the general statement is C08). -/
example : (parseIncremental new [(ascii "p cnf 2 1
1 -3 0", false)] false).2.2 =
    some (.varCount 3 2) := by decide
example : (parseIncremental new [(ascii "p cnf 4 1
1 -3 0", true), (ascii " 1 0", true)] false).2.2 =
    some (.clauseCount 2 1) := by decide

end Varisat.C07
