import Verif.Proof.DimacsRun
/-! All literals of a parsed formula are in range. -/
namespace Varisat.DimacsParser
open Spec.Dimacs

/-- The literals read so far. -/
def Ranged (p : DimacsParser) : Prop :=
  p.partialLit ≤ 2 ^ 28 ∧ (∀ l ∈ p.partialClause, l.var < 2 ^ 28) ∧ ∀ l ∈ p.formula.literals, l.var < 2 ^ 28

theorem Ranged.congr {p q : DimacsParser} (h : Ranged p) (h1 : q.partialLit = p.partialLit) (h2 : q.partialClause = p.partialClause)
    (h3 : q.formula.literals = p.formula.literals) : Ranged q := by
  unfold Ranged
  rw [h1, h2, h3]
  exact h

theorem Ranged.header {p : DimacsParser} (h : Ranged p) : Ranged p.parseHeaderLine.1 := by
  unfold parseHeaderLine invalidHeader
  repeat' split
  all_goals exact h.congr rfl rfl rfl

theorem Ranged.finish {p : DimacsParser} (h : Ranged p) : Ranged p.finishLiteral := by
  obtain ⟨h1, h2, h3⟩ := h
  unfold finishLiteral
  split
  · split
    · refine ⟨h1, (by simp), fun l hl => ?_⟩
      rcases List.mem_append.1 (show l ∈ p.formula.literals ++ p.partialClause from hl) with hl | hl
      · exact h3 l hl
      · exact h2 l hl
    · refine ⟨h1, fun l hl => ?_, h3⟩
      rcases List.mem_append.1 (show l ∈ p.partialClause ++ [_] from hl) with hl | hl
      · exact h2 l hl
      · rw [List.mem_singleton.1 hl, Lit.var_mk']
        omega
  · exact ⟨h1, h2, h3⟩

theorem Ranged.byte {p : DimacsParser} (h : Ranged p) (b : UInt8) : Ranged (p.parseByte b).1 := by
  by_cases hd : p.inCommentOrHeader = false ∧ isDigit b = true
  · rw [parseByte_digit p b hd.1 hd.2]
    split
    · rename_i hv
      exact ⟨hv, h.2⟩
    · exact h.congr rfl rfl rfl
  have h' : Ranged (if b = 10 then { p with lineNumber := p.lineNumber + 1 } else p) := by
    split
    · exact h.congr rfl rfl rfl
    · exact h
  have hd' : ¬ ((if b = 10 then { p with lineNumber := p.lineNumber + 1 } else p).inCommentOrHeader = false ∧ isDigit b = true) := by
    split <;> exact hd
  unfold parseByte
  generalize (if b = 10 then { p with lineNumber := p.lineNumber + 1 } else p) = p at *
  clear h hd
  have hf := h'.finish
  have hh : Ranged ({ p with inHeader := false } : DimacsParser).parseHeaderLine.1 := Ranged.header (h'.congr rfl rfl rfl)
  simp only
  split
  · split
    · revert hh
      generalize DimacsParser.parseHeaderLine _ = rx
      obtain ⟨r, x⟩ := rx
      intro hh
      cases x with
      | none => exact hh.congr rfl rfl rfl
      | some e => exact hh
    · exact h'.congr rfl rfl rfl
  · split
    · split
      · exact h'.congr rfl rfl rfl
      · exact h'
    · rename_i hc
      have hc : p.inCommentOrHeader = false := by simpa using hc
      rw [if_neg (show ¬ (48 ≤ b.toNat ∧ b.toNat ≤ 57) from fun k => hd' ⟨hc, by simp [isDigit, k]⟩)]
      repeat' split
      all_goals first
        | exact h'.congr rfl rfl rfl
        | exact ⟨Nat.zero_le _, hf.2⟩

theorem Ranged.loop : ∀ {bs : Bytes} {p : DimacsParser}, Ranged p → Ranged (p.parseLoop bs).1
  | [], _, h => h
  | b :: bs, p, h => by
    have hb := h.byte b
    simp only [parseLoop]
    revert hb
    rcases p.parseByte b with ⟨q, x⟩
    intro hb
    cases x with
    | none => exact Ranged.loop hb
    | some e => exact hb

theorem Ranged.eof {p : DimacsParser} (h : Ranged p) : Ranged p.eof.1 := by
  have hk : Ranged (if p.inHeader then p.parseHeaderLine else (p, none)).1 := by
    split
    · exact h.header
    · exact h
  unfold DimacsParser.eof
  revert hk
  generalize (if p.inHeader then p.parseHeaderLine else (p, none)) = a
  obtain ⟨q, x⟩ := a
  intro hk
  cases x with
  | some e => exact hk
  | none =>
    simp only
    split <;> exact Ranged.finish hk

theorem iter_mem {f : CnfFormula} {cs : List (List Lit)} (h : f.iter = some cs) : ∀ c ∈ cs, ∀ l ∈ c, l ∈ f.literals := by
  have key : ∀ (rs : List (Nat × Nat)) (cs : List (List Lit)), rs.mapM (CnfFormula.slice f.literals) = some cs → ∀ c ∈ cs, ∀ l ∈ c, l ∈ f.literals := by
    intro rs
    induction rs with
    | nil => intro cs h c hc; obtain rfl : [] = cs := (by simpa using h); cases hc
    | cons r rs ih =>
      intro cs h
      rw [List.mapM_cons] at h
      cases h1 : CnfFormula.slice f.literals r with
      | none => rw [h1] at h; cases h
      | some c0 =>
        cases h2 : rs.mapM (CnfFormula.slice f.literals) with
        | none => rw [h1, h2] at h; cases h
        | some cs' =>
          rw [h1, h2] at h
          obtain rfl : c0 :: cs' = cs := by simpa using h
          intro c hc l hl
          rcases List.mem_cons.1 hc with rfl | hc
          · unfold CnfFormula.slice at h1
            split at h1
            · cases h1; exact List.mem_of_mem_drop (List.mem_of_mem_take hl)
            · cases h1
          · exact ih cs' h2 c hc l hl
  exact key _ cs h

/-- Variables of a parsed formula have numbers below 2^28. -/
theorem parse_range {bs : List Bytes} {f : CnfFormula} {cs : List (List Lit)} (h : parse bs = .ok f) (hcs : f.iter = some cs) :
    ∀ c ∈ cs, ∀ l ∈ c, l.var < 2 ^ 28 := by
  have h0 : Ranged new := ⟨Nat.zero_le _, (fun l hl => by cases hl), (fun l hl => by cases hl)⟩
  unfold parse at h
  rw [parseIncremental_whole _ new rfl] at h
  have key : Ranged (whole new bs.flatten).1 := by
    unfold whole
    have := Ranged.loop (bs := bs.flatten) h0
    revert this
    rcases new.parseLoop bs.flatten with ⟨q, x⟩
    intro k
    cases x with
    | some e => exact k
    | none =>
      have := Ranged.eof k
      simp only
      revert this
      rcases q.eof with ⟨q', x'⟩
      intro k
      cases x' <;> exact k
  revert h key
  rcases whole new bs.flatten with ⟨q, y, x⟩
  intro h key
  cases x with
  | some e => cases h
  | none =>
    have h : (Except.ok q.formula : Except ParserError CnfFormula) = .ok f := h
    cases h
    exact fun c hc l hl => key.2.2 l (iter_mem hcs c hc l hl)

theorem Ranged.new : Ranged new := ⟨Nat.zero_le _, (fun l hl => by cases hl), (fun l hl => by cases hl)⟩

/-- The same for all formulas taken while parsing. -/
theorem incremental_range : ∀ {chunks : List (Bytes × Bool)} {p q : DimacsParser} {takeEnd : Bool} {fs : List CnfFormula} {x : Option ParserError},
    Ranged p → parseIncremental p chunks takeEnd = (q, fs, x) → ∀ f ∈ fs, ∀ l ∈ f.literals, l.var < 2 ^ 28
  | [], p, q, takeEnd, fs, x, h, k => by
    have := h.eof
    rw [parseIncremental] at k
    revert this k
    rcases p.eof with ⟨p', y⟩
    intro k this
    cases y with
    | some e => cases k; intro f hf; cases hf
    | none =>
      cases takeEnd with
      | false => cases k; intro f hf; cases hf
      | true => cases k; intro f hf; rw [List.mem_singleton.1 hf]; exact this.2.2
  | (data, take) :: chunks, p, q, takeEnd, fs, x, h, k => by
    have : Ranged (p.parseChunk data).1 := by
      unfold parseChunk
      split
      · exact h
      · exact h.loop
    rw [parseIncremental] at k
    revert this k
    rcases p.parseChunk data with ⟨p', y⟩
    intro k this
    cases y with
    | some e => cases k; intro f hf; cases hf
    | none =>
      cases take with
      | false => exact incremental_range this k
      | true =>
        simp only [if_true] at k
        have h2 : Ranged p'.takeFormula.1 := ⟨this.1, this.2.1, fun l hl => by cases hl⟩
        rcases hr : parseIncremental p'.takeFormula.1 chunks takeEnd with ⟨q1, fs1, x1⟩
        rw [hr] at k
        cases k
        intro f hf
        rcases List.mem_cons.1 hf with rfl | hf
        · exact this.2.2
        · exact incremental_range h2 hr f hf

end Varisat.DimacsParser
