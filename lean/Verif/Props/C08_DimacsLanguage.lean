import Verif.Proof.DimacsRun
/-!
# C04, C06, C07, C08: DIMACS parsing

The language is specified line by line and word by word in `Verif.Spec.Dimacs.doc?`.
-/
namespace Varisat.C08
open Varisat.Spec.Dimacs DimacsParser

/-- The variable count of a formula without header: the least bound on its variables. -/
def LeastBound (n : Nat) (cs : List (List Lit)) : Prop :=
  (∀ c ∈ cs, ∀ l ∈ c, l.var < n) ∧ ∀ m, (∀ c ∈ cs, ∀ l ∈ c, l.var < m) → n ≤ m

theorem leastBound_varsCls (cs : List (List Lit)) : LeastBound (varsCls cs) cs :=
  ⟨fun _ hc _ hl => lt_varsCls hc hl, fun _ h => varsCls_le h⟩

theorem doc?_eq (bs : Bytes) : doc? bs = (specRun [] none (lines bs)).bind (fun r =>
    match r.2 with
    | none => some ⟨r.1, none⟩
    | some (v, c) => if r.1.length = c ∧ ∀ cl ∈ r.1, ∀ l ∈ cl, l.var < v then
        some ⟨r.1, some (v, c)⟩ else none) := by
  have e : doc? bs = (((datas (lines bs)).flatMap words).mapM number?).bind (fun ns =>
    (readClauses [] ns).bind (fun clauses => match hdrs (lines bs) with
      | [] => some ⟨clauses, none⟩
      | [h] => (header? h).bind (fun vc =>
        if clauses.length = vc.2 ∧ ∀ cl ∈ clauses, ∀ l ∈ cl, l.var < vc.1 then
          some ⟨clauses, some vc⟩ else none)
      | _ => none)) := rfl
  rw [e]
  simp only [specRun]
  cases ((datas (lines bs)).flatMap words).mapM number? with
  | none => rfl
  | some ns =>
    simp only [Option.bind_some]
    cases readClauses [] ns with
    | none => rfl
    | some cls =>
      simp only [Option.bind_some]
      rcases hdrs (lines bs) with _ | ⟨x, _ | ⟨y, hs⟩⟩
      · rfl
      · simp only [Option.isSome_none, Bool.false_eq_true, if_false]
        cases header? x <;> rfl
      · rfl

/-- What the parser does with every byte string in every chunking: it takes away a lone minus sign at the very end of the input,
unless that is in a comment or in the header, and delivers exactly the clauses of the rest if that is in the documented language.
-/
theorem accepts (chunks : List Bytes) :
    match doc? (trimDoc chunks.flatten) with
    | some d => ∃ f, parse chunks = .ok f ∧ f.iter = some d.clauses ∧
        (∀ v n, d.header = some (v, n) → f.varCount = v ∧ f.len = n) ∧
        (d.header = none → LeastBound f.varCount d.clauses)
    | none => ∃ e, parse chunks = .error e := by
  have hfin := finish_doc _ chunks.flatten new (Nat.le_refl _) Mid.new rfl
  have hrun := run_spec (lines (trimDoc chunks.flatten)) (core new) [] (by
    simp [C02.Repr, core, new, CnfFormula.new, CnfFormula.iter]) (by simp [core, new, hdrPair, hdrVars])
  rw [doc?_eq]
  have hinc := parseIncremental_whole chunks new rfl
  have hcore : (core new).partialClause = [] ∧ hdrPair (core new).header = none ∧
    (core new).formula.varCount = 0 ∧ (core new).clauseCount = 0 := ⟨rfl, rfl, rfl, rfl⟩
  rw [hcore.1, hcore.2.1] at hrun
  unfold parse
  rw [hinc]
  unfold whole
  unfold finish at hfin
  generalize hsr : specRun [] none (lines (trimDoc chunks.flatten)) = sr at hrun ⊢
  cases sr with
  | none =>
    simp only [Option.bind_none]
    simp only at hrun
    rw [hrun] at hfin
    revert hfin
    rcases new.parseLoop chunks.flatten with ⟨q, _ | e⟩
    · simp only
      rcases q.eof with ⟨q, _ | e⟩
      · simp
      · intro _; exact ⟨_, rfl⟩
    · intro _; exact ⟨_, rfl⟩
  | some r =>
    obtain ⟨cls, hd⟩ := r
    simp only [Option.bind_some]
    simp only at hrun
    obtain ⟨c', h1, h2, h3, h4, h5⟩ := hrun
    rw [h1] at hfin
    revert hfin
    rcases new.parseLoop chunks.flatten with ⟨q, _ | e⟩
    · simp only
      rcases q.eof with ⟨q, _ | e⟩
      · simp only [Option.some.injEq]
        intro hc
        subst hc
        have hlen := C02.repr_len h3
        rw [hcore.2.2.1] at h5
        rw [hcore.2.2.2] at h4
        simp only [core, List.nil_append, Nat.zero_add, Nat.zero_max] at h2 h3 h4 h5 hlen
        unfold checkHeader
        cases hq : q.header with
        | none =>
          rw [hq] at h2
          simp only [hdrPair, Option.map_none] at h2
          subst h2
          refine ⟨_, rfl, h3, by simp, fun _ => ?_⟩
          have : q.formula.varCount = varsCls cls := by rw [h5]; simp [hdrVars]
          show LeastBound q.formula.varCount cls
          rw [this]; exact leastBound_varsCls cls
        | some h =>
          rw [hq] at h2
          simp only [hdrPair, Option.map_some] at h2
          subst h2
          simp only [hdrVars] at h5 ⊢
          by_cases hok : cls.length = h.clauseCount ∧ ∀ cl ∈ cls, ∀ l ∈ cl, l.var < h.varCount
          · rw [if_pos hok]
            have hv := varsCls_le hok.2
            rw [if_neg (by omega), if_neg (by omega)]
            refine ⟨_, rfl, h3, ?_, by simp⟩
            intro v n hvn
            simp at hvn
            show q.formula.varCount = v ∧ q.formula.len = n
            omega
          · rw [if_neg hok]
            by_cases hv : q.formula.varCount = h.varCount
            · rw [if_neg (by omega)]
              have : q.clauseCount ≠ h.clauseCount := by
                intro hcc
                apply hok
                refine ⟨by omega, fun cl hcl l hl => ?_⟩
                have := lt_varsCls hcl hl
                omega
              rw [if_pos this]; exact ⟨_, rfl⟩
            · rw [if_pos hv]; exact ⟨_, rfl⟩
      · simp
    · simp

/-- **C08.** The parser accepts exactly the documented language and delivers exactly the clauses of
the file, for every byte string and every chunking.

Partial: inputs whose last byte is `-` are excluded: the code accepts a lone minus sign at the end of the file, see
`dangling_minus_accepted`. `accepts` has no exclusion, `accepts_all` is one half without exclusion. -/
theorem accepts_exactly_partial (chunks : List Bytes)
    (hlast : chunks.flatten.getLast? ≠ some 45) :
    match doc? chunks.flatten with
    | some d => ∃ f, parse chunks = .ok f ∧ f.iter = some d.clauses ∧
        (∀ v n, d.header = some (v, n) → f.varCount = v ∧ f.len = n) ∧
        (d.header = none → LeastBound f.varCount d.clauses)
    | none => ∃ e, parse chunks = .error e := by
  have := accepts chunks
  rwa [trimDoc_last_byte hlast] at this

/-- **C08**, the half that holds for all inputs: every file in the language is accepted, with its clauses and its counts. -/
theorem accepts_all (chunks : List Bytes) {d : Doc} (h : doc? chunks.flatten = some d) :
    ∃ f, parse chunks = .ok f ∧ f.iter = some d.clauses ∧
      (∀ v n, d.header = some (v, n) → f.varCount = v ∧ f.len = n) ∧
      (d.header = none → LeastBound f.varCount d.clauses) := by
  have := accepts chunks
  rwa [trimDoc_doc h, h] at this

/-- **C08**, the other half: what is accepted is in the language, or is so without the minus sign that it ends in. -/
theorem accepted (chunks : List Bytes) {f : CnfFormula} (h : parse chunks = .ok f) :
    ∃ d, (doc? chunks.flatten = some d ∨ ∃ r, chunks.flatten = r ++ [45] ∧ doc? r = some d) ∧ f.iter = some d.clauses := by
  have := accepts chunks
  cases hd : doc? (trimDoc chunks.flatten) with
  | none => rw [hd, h] at this; obtain ⟨_, k⟩ := this; cases k
  | some d =>
    rw [hd] at this
    obtain ⟨f', k1, k2, -⟩ := this
    rw [h] at k1
    cases k1
    refine ⟨d, ?_, k2⟩
    rcases trimDoc_cases chunks.flatten with e | ⟨-, -, -, -, -, e⟩
    · rw [e] at hd; exact .inl hd
    · exact .inr ⟨_, e, hd⟩

/-- Non-trivial instance: comments, header, CR LF, empty clause, cut into chunks. -/
example : let chunks := [ascii "c hi\np c", ascii "nf 3 2\r\n1 -", ascii "3\n0 0"]
    chunks.flatten.getLast? ≠ some 45 ∧
    (doc? chunks.flatten).map (·.clauses) = some [[⟨0⟩, ⟨5⟩], []] := by decide +kernel

/-- What is taken away: only a lone minus sign that ends a line of data. -/
example : trimDoc (ascii "1 0 -") = ascii "1 0 " ∧ trimDoc (ascii "-") = [] ∧ trimDoc (ascii "1 0\n-") = ascii "1 0\n" ∧
    (∀ s ∈ ["1 0 1-", "1 0 --", "c x -", "1 0 - ", "1 0 -\n", "c -\np cnf 1 1 -"], trimDoc (ascii s) = ascii s) := by decide +kernel

/-- Another one: the header has a no-break space, an em space and ideographic space between its words; other characters outside of
ASCII are not accepted there, nor are ill-formed bytes. -/
example : let header := fun x y z => ascii "p " ++ x ++ ascii "cnf" ++ y ++ ascii "+3" ++ z ++ ascii "2"
    header? (header [0xE3, 0x80, 0x80] [0xC2, 0xA0] [0xE2, 0x80, 0x83]) = some (3, 2) ∧ header? (header [0xC2] [32] [32]) = none ∧
    header? (header [] [32] [0xE2, 0x80, 0x8B]) = none ∧ header? (ascii "p\tcnf 3 2") = none := by decide +kernel

/-- The exclusion is necessary: `1 0 -` is not a sequence of numbers, yet is accepted. -/
theorem dangling_minus_accepted :
    (∃ f, parse [ascii "1 0 -"] = .ok f) ∧ doc? (ascii "1 0 -") = none := by
  exact ⟨⟨⟨1, [⟨0⟩], [(0, 1)]⟩, rfl⟩, by decide +kernel⟩

/-- Inputs without header, as the English property has it. -/
theorem accepts_no_header_partial (chunks : List Bytes)
    (hlast : chunks.flatten.getLast? ≠ some 45)
    (hno : ∀ l ∈ lines chunks.flatten, l.head? ≠ some 112) :
    (∀ cs, (∃ f, parse chunks = .ok f ∧ f.iter = some cs) ↔
      ∃ ns, (((lines chunks.flatten).filter (fun l => l.head? ≠ some 99)).flatMap words).mapM number?
          = some ns ∧ readClauses [] ns = some cs) := by
  have h := accepts_exactly_partial chunks hlast
  have e1 : (lines chunks.flatten).filter (fun l => l.head? ≠ some 99 ∧ l.head? ≠ some 112) =
      (lines chunks.flatten).filter (fun l => l.head? ≠ some 99) := by
    apply List.filter_congr; intro l hl; simp [hno l hl]
  have e2 : (lines chunks.flatten).filter (fun l => l.head? = some 112) = [] := by
    rw [List.filter_eq_nil_iff]; intro l hl; simp [hno l hl]
  have e3 : doc? chunks.flatten =
      ((((lines chunks.flatten).filter (fun l => l.head? ≠ some 99)).flatMap words).mapM number?).bind
        (fun ns => (readClauses [] ns).bind (fun cs => some ⟨cs, none⟩)) := by
    unfold doc?; simp only [e1, e2]; rfl
  intro cs
  rw [e3] at h
  cases hn : (((lines chunks.flatten).filter (fun l => l.head? ≠ some 99)).flatMap words).mapM number? with
  | none =>
    rw [hn] at h
    simp only [Option.bind_none] at h
    obtain ⟨e, he⟩ := h
    simp [he]
  | some ns =>
    rw [hn] at h
    cases hr : readClauses [] ns with
    | none =>
      simp only [hr, Option.bind_some, Option.bind_none] at h
      obtain ⟨e, he⟩ := h
      simp [he, hr]
    | some cls =>
      simp only [hr, Option.bind_some] at h
      obtain ⟨f, hf, hi, _⟩ := h
      simp [hf, hi, hr]

end Varisat.C08
