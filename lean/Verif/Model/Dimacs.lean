import Verif.Model.Cnf
import Verif.Model.Bytes
/-!
# Model: `varisat-dimacs/src/lib.rs`
-/
namespace Varisat

/-- `ParserError`, `lib.rs:12-54`. The formatted message is not modelled; `InvalidHeader` keeps the
raw bytes of the header line. -/
inductive ParserError where
  | unexpectedInput (line : Nat) (unexpected : UInt8)
  | literalTooLarge (line index finalDigit : Nat)
  | invalidHeader (line : Nat) (header : Bytes)
  | unterminatedClause (line : Nat)
  | varCount (varCount headerVarCount : Nat)
  | clauseCount (clauseCount headerClauseCount : Nat)
  | previousError
deriving DecidableEq, Repr

/-- `DimacsHeader`, `lib.rs:58-61`. -/
structure DimacsHeader where
  varCount : Nat
  clauseCount : Nat
deriving DecidableEq, Repr

/-- `DimacsParser`, `lib.rs:67-84`. -/
structure DimacsParser where
  formula : CnfFormula := CnfFormula.new
  partialClause : List Lit := []
  header : Option DimacsHeader := none
  lineNumber : Nat := 1
  clauseCount : Nat := 0
  partialLit : Nat := 0
  negateNextLit : Bool := false
  inLit : Bool := false
  inCommentOrHeader : Bool := false
  inHeader : Bool := false
  startOfLine : Bool := true
  error : Bool := false
  headerLine : Bytes := []
deriving Repr

/-- `str::split_whitespace` on the header line after `String::from_utf8_lossy`, at the byte level:
the white space character (if any) at the head of the string, given by its length in bytes.
`White_Space` characters are U+0009-000D, U+0020, U+0085, U+00A0, U+1680, U+2000-200A, U+2028,
U+2029, U+202F, U+205F, U+3000; the lead byte of each encoding is never a continuation byte, so
an occurrence of the byte sequence is always decoded as that character, also by the lossy
decoder (proved in `Proof/Utf8.lean`). -/
def wsLen : Bytes → Nat
  | 0xC2 :: b :: _ => if b = 0x85 ∨ b = 0xA0 then 2 else 0
  | 0xE1 :: b :: c :: _ => if b = 0x9A ∧ c = 0x80 then 3 else 0
  | 0xE2 :: b :: c :: _ =>
    if b = 0x80 ∧ ((0x80 ≤ c ∧ c ≤ 0x8A) ∨ c = 0xA8 ∨ c = 0xA9 ∨ c = 0xAF) then 3
    else if b = 0x81 ∧ c = 0x9F then 3 else 0
  | 0xE3 :: b :: c :: _ => if b = 0x80 ∧ c = 0x80 then 3 else 0
  | b :: _ => if (9 ≤ b ∧ b ≤ 13) ∨ b = 32 then 1 else 0
  | [] => 0

/-- `split_whitespace`: maximal runs without white space. `skip` counts the remaining bytes of a
multi-byte white space character. -/
def splitWs : (skip : Nat) → (cur : Bytes) → Bytes → List Bytes
  | _, cur, [] => if cur = [] then [] else [cur]
  | skip + 1, cur, _ :: bs => splitWs skip cur bs
  | 0, cur, b :: bs =>
    match wsLen (b :: bs) with
    | 0 => splitWs 0 (cur ++ [b]) bs
    | n + 1 => (if cur = [] then [] else [cur]) ++ splitWs n [] bs

/-- Digits of `<usize as FromStr>::from_str`: checked, `none` on a non-digit or overflow. -/
def parseDigits : Nat → Bytes → Option Nat
  | acc, [] => some acc
  | acc, b :: bs =>
    if 48 ≤ b.toNat ∧ b.toNat ≤ 57 then
      let acc := acc * 10 + (b.toNat - 48)
      if acc < 2 ^ 64 then parseDigits acc bs else none
    else none

/-- `str::parse::<usize>`: optional leading `+`, at least one digit, no overflow. -/
def parseUsize : Bytes → Option Nat
  | [] => none
  | 43 :: bs => if bs = [] then none else parseDigits 0 bs
  | bs => parseDigits 0 bs

namespace DimacsParser

/-- `DimacsParser::new`, `lib.rs:88-107`. -/
def new : DimacsParser := {}

/-- `invalid_header`, `lib.rs:374-380`. -/
def invalidHeader (p : DimacsParser) : DimacsParser × Option ParserError :=
  ({ p with error := true }, some (.invalidHeader p.lineNumber p.headerLine))

/-- `parse_header_line`, `lib.rs:322-372`. -/
def parseHeaderLine (p : DimacsParser) : DimacsParser × Option ParserError :=
  if p.headerLine.take 2 ≠ [112, 32] then p.invalidHeader else
  match splitWs 0 [] (p.headerLine.drop 2) with
  | [] => p.invalidHeader
  | w :: ws =>
    if w ≠ [99, 110, 102] then p.invalidHeader else
    match ws with
    | [] => p.invalidHeader
    | v :: ws =>
      match parseUsize v with
      | none => p.invalidHeader
      | some varCount =>
        if varCount > maxVarCount then
          ({ p with error := true },
            some (.literalTooLarge p.lineNumber (varCount / 10) (varCount % 10)))
        else
        match ws with
        | [] => p.invalidHeader
        | c :: ws =>
          match parseUsize c with
          | none => p.invalidHeader
          | some clauseCount =>
            if ws ≠ [] then p.invalidHeader else
            ({ p with
                header := some ⟨varCount, clauseCount⟩
                formula := p.formula.setVarCount varCount }, none)

/-- `finish_literal`, `lib.rs:309-320`. -/
def finishLiteral (p : DimacsParser) : DimacsParser :=
  if p.inLit then
    if p.partialLit = 0 then
      { p with
        formula := p.formula.addClause p.partialClause
        partialClause := []
        clauseCount := p.clauseCount + 1 }
    else
      { p with partialClause := p.partialClause ++ [Lit.mk' (p.partialLit - 1) (!p.negateNextLit)] }
  else p

/-- One iteration of the byte loop of `parse_chunk`, `lib.rs:160-231`. The second component is the
error returned, if any. -/
def parseByte (p : DimacsParser) (byte : UInt8) : DimacsParser × Option ParserError :=
  -- lib.rs:161-163
  let p := if byte = 10 then { p with lineNumber := p.lineNumber + 1 } else p
  -- lib.rs:165-172
  if (byte = 10 ∨ byte = 13) ∧ p.inCommentOrHeader then
    if p.inHeader then
      match ({ p with inHeader := false }).parseHeaderLine with
      | (p, some e) => (p, some e)
      | (p, none) => ({ p with inCommentOrHeader := false, startOfLine := true }, none)
    else ({ p with inCommentOrHeader := false, startOfLine := true }, none)
  -- lib.rs:173-177
  else if p.inCommentOrHeader then
    if p.inHeader then ({ p with headerLine := p.headerLine ++ [byte] }, none) else (p, none)
  -- lib.rs:178-203
  else if 48 ≤ byte.toNat ∧ byte.toNat ≤ 57 then
    let p := { p with inLit := true }
    let digit := byte.toNat - 48
    let canOverflow := maxVarCount / 10
    let overflowDigit := maxVarCount % 10
    if canOverflow ≤ p.partialLit ∧
        canOverflow + (if digit ≤ overflowDigit then 1 else 0) ≤ p.partialLit then
      ({ p with error := true }, some (.literalTooLarge p.lineNumber p.partialLit digit))
    else
      ({ p with partialLit := p.partialLit * 10 + digit, startOfLine := false }, none)
  -- lib.rs:204-207
  else if byte = 45 ∧ !p.negateNextLit ∧ !p.inLit then
    ({ p with negateNextLit := true, startOfLine := false }, none)
  -- lib.rs:208-214
  else if (byte = 32 ∨ byte = 10 ∨ byte = 13) ∧ (!p.negateNextLit ∨ p.inLit) then
    ({ p.finishLiteral with
        negateNextLit := false, inLit := false, partialLit := 0
        startOfLine := byte ≠ 32 }, none)
  -- lib.rs:215-217
  else if byte = 99 ∧ p.startOfLine then
    ({ p with inCommentOrHeader := true }, none)
  -- lib.rs:218-222
  else if byte = 112 ∧ p.startOfLine ∧ p.header.isNone then
    ({ p with
        inCommentOrHeader := true, inHeader := true, headerLine := p.headerLine ++ [112] }, none)
  -- lib.rs:223-229
  else
    ({ p with error := true }, some (.unexpectedInput p.lineNumber byte))

/-- The byte loop of `parse_chunk`, `lib.rs:160-233`: stops at the first error. -/
def parseLoop (p : DimacsParser) : Bytes → DimacsParser × Option ParserError
  | [] => (p, none)
  | b :: bs =>
    match p.parseByte b with
    | (p, some e) => (p, some e)
    | (p, none) => parseLoop p bs

/-- `parse_chunk`, `lib.rs:156-234`. -/
def parseChunk (p : DimacsParser) (chunk : Bytes) : DimacsParser × Option ParserError :=
  if p.error then (p, some .previousError) else p.parseLoop chunk

/-- `eof`, `lib.rs:240-254`. -/
def eof (p : DimacsParser) : DimacsParser × Option ParserError :=
  match (if p.inHeader then p.parseHeaderLine else (p, none)) with
  | (p, some e) => (p, some e)
  | (p, none) =>
    let p := p.finishLiteral
    if p.partialClause ≠ [] then (p, some (.unterminatedClause p.lineNumber)) else (p, none)

/-- `check_header`, `lib.rs:259-278`. -/
def checkHeader (p : DimacsParser) : Option ParserError :=
  match p.header with
  | none => none
  | some h =>
    if p.formula.varCount ≠ h.varCount then some (.varCount p.formula.varCount h.varCount)
    else if p.clauseCount ≠ h.clauseCount then some (.clauseCount p.clauseCount h.clauseCount)
    else none

/-- `take_formula`, `lib.rs:288-292`. -/
def takeFormula (p : DimacsParser) : DimacsParser × CnfFormula :=
  ({ p with formula := CnfFormula.new.setVarCount p.formula.varCount }, p.formula)

/-- `parse_incremental`, `lib.rs:123-148`, with a callback that either takes the formula parsed so
far or does nothing (`true`/`false` per call); chunks are the successive fills of the reader. The
callback's own errors are not modelled. Returns the parser, the formulas taken, and the first
error. -/
def parseIncremental : DimacsParser → List (Bytes × Bool) → Bool →
    DimacsParser × List CnfFormula × Option ParserError
  | p, [], takeEnd =>
    match p.eof with
    | (p, some e) => (p, [], some e)
    | (p, none) =>
      let (p, taken) := if takeEnd then
          let (p, f) := p.takeFormula
          (p, [f])
        else (p, [])
      (p, taken, p.checkHeader)
  | p, (data, take) :: chunks, takeEnd =>
    match p.parseChunk data with
    | (p, some e) => (p, [], some e)
    | (p, none) =>
      if take then
        let (p, f) := p.takeFormula
        let (p, fs, e) := parseIncremental p chunks takeEnd
        (p, f :: fs, e)
      else parseIncremental p chunks takeEnd

/-- `DimacsParser::parse`, `lib.rs:114-116`, for a reader that delivers the given chunks. -/
def parse (chunks : List Bytes) : Except ParserError CnfFormula :=
  match parseIncremental new (chunks.map (·, false)) false with
  | (_, _, some e) => .error e
  | (p, _, none) => .ok p.takeFormula.2

end DimacsParser

/-- `write_dimacs_header`, `lib.rs:386-393`. -/
def writeDimacsHeader (h : DimacsHeader) : Bytes :=
  ascii "p cnf " ++ decNat h.varCount ++ ascii " " ++ decNat h.clauseCount ++ ascii "\n"

/-- Inner loop of `write_dimacs_clauses`, `lib.rs:403-407`. -/
def writeDimacsClause (c : List Lit) : Bytes :=
  c.flatMap (fun l => decInt l.toDimacs ++ ascii " ") ++ ascii "0\n"

/-- `write_dimacs_clauses`, `lib.rs:398-410`. -/
def writeDimacsClauses (cs : List (List Lit)) : Bytes := cs.flatMap writeDimacsClause

/-- `write_dimacs`, `lib.rs:415-424`; `none` if iterating the formula panics. -/
def writeDimacs (f : CnfFormula) : Option Bytes := do
  let cs ← f.iter
  return writeDimacsHeader ⟨f.varCount, f.len⟩ ++ writeDimacsClauses cs

end Varisat
