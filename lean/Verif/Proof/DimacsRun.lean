import Verif.Proof.DimacsDoc
/-!
# From line-wise runs to `doc?`, and chunk independence
-/
namespace Varisat.DimacsParser
open Varisat.Spec.Dimacs Varisat.C02

/-- Clauses completed by a list of numbers, and the clause left open. -/
def pushes (cur : List Lit) : List Int → List (List Lit) × List Lit
  | [] => ([], cur)
  | n :: ns =>
    if n = 0 then (cur :: (pushes [] ns).1, (pushes [] ns).2)
    else pushes (cur ++ [Lit.fromDimacs n]) ns

theorem readClauses_append (ns ms : List Int) (cur : List Lit) :
    readClauses cur (ns ++ ms) =
      (readClauses (pushes cur ns).2 ms).map ((pushes cur ns).1 ++ ·) := by
  induction ns generalizing cur with
  | nil => simp [pushes]
  | cons n ns ih =>
    simp only [List.cons_append, readClauses, pushes]
    split
    · rw [ih]; simp [Function.comp_def]
    · rw [ih]

/-- Least number exceeding all variables of all clauses. -/
def varsCls (cs : List (List Lit)) : Nat := (cs.map varsOf).foldr max 0

theorem varsCls_append (a b : List (List Lit)) : varsCls (a ++ b) = max (varsCls a) (varsCls b) := by
  unfold varsCls
  induction a with
  | nil => simp
  | cons x a ih => simp only [List.cons_append, List.map_cons, List.foldr_cons, ih]; omega

theorem lt_varsCls {cs : List (List Lit)} {c : List Lit} (hc : c ∈ cs) {l : Lit} (hl : l ∈ c) :
    l.var < varsCls cs := by
  unfold varsCls
  induction cs with
  | nil => simp at hc
  | cons x cs ih =>
    simp only [List.map_cons, List.foldr_cons]
    rcases List.mem_cons.1 hc with rfl | hc
    · have := le_varsOf hl; omega
    · have := ih hc; omega

theorem varsOf_le {c : List Lit} {n : Nat} (h : ∀ l ∈ c, l.var < n) : varsOf c ≤ n := by
  unfold varsOf
  induction c with
  | nil => simp
  | cons x c ih =>
    simp only [List.map_cons, List.foldr_cons]
    have := h x (by simp)
    have := ih (fun l hl => h l (by simp [hl]))
    omega

theorem varsCls_le {cs : List (List Lit)} {n : Nat} (h : ∀ c ∈ cs, ∀ l ∈ c, l.var < n) :
    varsCls cs ≤ n := by
  unfold varsCls
  induction cs with
  | nil => simp
  | cons x cs ih =>
    simp only [List.map_cons, List.foldr_cons]
    have := varsOf_le (h x (by simp))
    have := ih (fun c hc => h c (by simp [hc]))
    omega

theorem foldl_push (ns : List Int) (c : Core) (pre : List (List Lit)) (hr : Repr c.formula pre) :
    Repr (ns.foldl Core.push c).formula (pre ++ (pushes c.partialClause ns).1) ∧
    (ns.foldl Core.push c).partialClause = (pushes c.partialClause ns).2 ∧
    (ns.foldl Core.push c).clauseCount = c.clauseCount + (pushes c.partialClause ns).1.length ∧
    (ns.foldl Core.push c).header = c.header ∧
    (ns.foldl Core.push c).formula.varCount =
      max c.formula.varCount (varsCls (pushes c.partialClause ns).1) := by
  induction ns generalizing c pre with
  | nil => simpa [pushes, varsCls] using hr
  | cons n ns ih =>
    simp only [List.foldl_cons, pushes]
    by_cases hn : n = 0
    · have h := ih (c.push n) (pre ++ [c.partialClause]) (by
        simp only [Core.push, hn, if_true]; exact addClause_repr hr _)
      simp only [hn, if_true, Core.push] at h ⊢
      obtain ⟨h1, h2, h3, h4, h5⟩ := h
      refine ⟨by simpa using h1, h2, by rw [h3]; simp; omega, h4, ?_⟩
      rw [h5, addClause_varCount]
      simp only [varsCls, List.map_cons, List.foldr_cons]; omega
    · have h := ih (c.push n) pre (by simpa only [Core.push, hn, if_false] using hr)
      simp only [hn, if_false, Core.push] at h ⊢
      exact h

/-- Data lines. -/
def datas (ls : List Bytes) : List Bytes :=
  ls.filter (fun l => l.head? ≠ some 99 ∧ l.head? ≠ some 112)

/-- Header lines. -/
def hdrs (ls : List Bytes) : List Bytes := ls.filter (fun l => l.head? = some 112)

/-- The specification in the shape of a run from an intermediate state. -/
def specRun (cur : List Lit) (hd : Option (Nat × Nat)) (ls : List Bytes) :
    Option (List (List Lit) × Option (Nat × Nat)) :=
  (((datas ls).flatMap words).mapM number?).bind
    fun ns => (readClauses cur ns).bind fun cls =>
      match hdrs ls with
      | [] => some (cls, hd)
      | [h] => if hd.isSome then none else (header? h).map (fun vc => (cls, some vc))
      | _ => none

theorem bind_none' {α β} (o : Option α) : (o.bind fun _ => (none : Option β)) = none := by
  cases o <;> rfl

theorem specRun_comment {cur hd l ls} (h : l.head? = some 99) :
    specRun cur hd (l :: ls) = specRun cur hd ls := by
  simp [specRun, h, datas, hdrs]

theorem specRun_header {cur hd l ls} (h : l.head? = some 112) :
    specRun cur hd (l :: ls) =
      if hd.isSome then none else (header? l).bind (fun vc => specRun cur (some vc) ls) := by
  have e1 : datas (l :: ls) = datas ls := by simp [datas, h]
  have e2 : hdrs (l :: ls) = l :: hdrs ls := by simp [hdrs, h]
  simp only [specRun, e1, e2]
  generalize ((datas ls).flatMap words).mapM number? = o
  generalize hdrs ls = hs
  cases o with
  | none => cases hd <;> cases header? l <;> simp
  | some ns =>
    simp only [Option.bind_some]
    cases readClauses cur ns with
    | none => cases hd <;> cases header? l <;> simp
    | some cls =>
      rcases hs with _ | ⟨x, _ | ⟨y, hs⟩⟩ <;> cases hd <;> cases hl : header? l <;> simp [hl]

theorem specRun_data {cur hd l ls} (h1 : l.head? ≠ some 99) (h2 : l.head? ≠ some 112) :
    specRun cur hd (l :: ls) = ((words l).mapM number?).bind (fun ns =>
      (specRun (pushes cur ns).2 hd ls).map (fun r => ((pushes cur ns).1 ++ r.1, r.2))) := by
  have e1 : datas (l :: ls) = l :: datas ls := by simp [datas, h1, h2]
  have e2 : hdrs (l :: ls) = hdrs ls := by simp [hdrs, h2]
  simp only [specRun, e1, e2, List.flatMap_cons, List.mapM_append]
  generalize ((datas ls).flatMap words).mapM number? = o
  generalize hdrs ls = hs
  cases (words l).mapM number? with
  | none => rfl
  | some ns =>
    simp only [Option.bind_some, Option.pure_def, Option.bind_eq_bind]
    cases o with
    | none => rfl
    | some ms =>
      simp only [Option.bind_some]
      rw [readClauses_append]
      cases readClauses (pushes cur ns).2 ms with
      | none => rfl
      | some cls =>
        simp only [Option.map_some, Option.bind_some]
        rcases hs with _ | ⟨x, _ | ⟨y, hs⟩⟩
        · rfl
        · cases hd <;> cases hl : header? x <;> simp [hl]
        · rfl

/-- Variables announced by a header. -/
def hdrVars : Option (Nat × Nat) → Nat
  | none => 0
  | some (v, _) => v

/-- Header as a pair. -/
def hdrPair (h : Option DimacsHeader) : Option (Nat × Nat) :=
  h.map (fun h => (h.varCount, h.clauseCount))

theorem run_spec (ls : List Bytes) (c : Core) (pre : List (List Lit)) (hr : Repr c.formula pre)
    (hv : hdrVars (hdrPair c.header) ≤ c.formula.varCount) :
    match specRun c.partialClause (hdrPair c.header) ls with
    | none => c.run ls = none
    | some (cls, hd) => ∃ c', c.run ls = some c' ∧ hdrPair c'.header = hd ∧
        Repr c'.formula (pre ++ cls) ∧ c'.clauseCount = c.clauseCount + cls.length ∧
        c'.formula.varCount = max (max c.formula.varCount (hdrVars hd)) (varsCls cls) := by
  induction ls generalizing c pre with
  | nil =>
    simp only [specRun, datas, hdrs, List.filter_nil, List.flatMap_nil, List.mapM_nil, Option.pure_def,
      Option.bind_some, readClauses]
    by_cases hp : c.partialClause = []
    · simp only [hp, if_true, Option.bind_some]
      exact ⟨c, by simp [Core.run, Core.done, hp], rfl, by simpa using hr, by simp, by
        simp [varsCls]; omega⟩
    · simp [hp, Core.run, Core.done]
  | cons l ls ih =>
    simp only [Core.run]
    by_cases h1 : l.head? = some 99
    · rw [specRun_comment h1]
      simp only [Core.line, h1, if_true, Option.bind_some]
      exact ih c pre hr hv
    by_cases h2 : l.head? = some 112
    · rw [specRun_header h2]
      have e : c.line l = c.headerLineStep l := by simp [Core.line, h2]
      rw [e]
      unfold Core.headerLineStep
      cases hh : c.header with
      | some x => simp [hdrPair]
      | none =>
        simp only [hdrPair, Option.map_none, Option.isSome_none, Bool.false_eq_true, if_false]
        cases hl : header? l with
        | none => simp
        | some vc =>
          obtain ⟨v, n⟩ := vc
          simp only [Option.bind_some]
          have := ih { c with
            header := some ⟨v, n⟩, formula := c.formula.setVarCount v, headerLine := l } pre
            (by simpa [C02.Repr, CnfFormula.iter, CnfFormula.setVarCount] using hr)
            (by simp [hdrPair, hdrVars, CnfFormula.setVarCount]; omega)
          simp only [hdrPair, Option.map_some] at this
          revert this
          cases hs : specRun c.partialClause (some (v, n)) ls with
          | none => exact id
          | some r =>
            obtain ⟨cls, hd⟩ := r
            simp only
            intro ⟨c', g1, g2, g3, g4, g5⟩
            refine ⟨c', g1, g2, g3, g4, ?_⟩
            rw [g5]
            have : hdrVars hd = v := by
              have h' := hs
              simp only [specRun, Option.bind_eq_some_iff] at h'
              obtain ⟨_, _, _, _, h'⟩ := h'
              split at h'
              · simp at h'; rw [← h'.2]; rfl
              · simp at h'
              · simp at h'
            rw [this]; simp [CnfFormula.setVarCount]; try omega
    · rw [specRun_data h1 h2]
      have e : c.line l = ((words l).mapM number?).map (fun ns => ns.foldl Core.push c) := by
        simp [Core.line, h1, h2]
      rw [e]
      cases (words l).mapM number? with
      | none => simp
      | some ns =>
        simp only [Option.bind_some, Option.map_some]
        obtain ⟨g1, g2, g3, g4, g5⟩ := foldl_push ns c pre hr
        have := ih (ns.foldl Core.push c) _ g1 (by rw [g4, g5]; omega)
        rw [g2, g4] at this
        revert this
        cases specRun (pushes c.partialClause ns).2 (hdrPair c.header) ls with
        | none => exact id
        | some r =>
          obtain ⟨cls, hd⟩ := r
          simp only [Option.map_some]
          intro ⟨c', f1, f2, f3, f4, f5⟩
          refine ⟨c', f1, f2, by simpa using f3, by rw [f4, g3]; simp; omega, ?_⟩
          rw [f5, g5, varsCls_append]; omega

/-! ### Chunks -/

/-- Loop, `eof`, header check: what `parse_incremental` does with all bytes in one piece. -/
def whole (p : DimacsParser) (bs : Bytes) : DimacsParser × List CnfFormula × Option ParserError :=
  match p.parseLoop bs with
  | (q, some e) => (q, [], some e)
  | (q, none) => match q.eof with
    | (q, some e) => (q, [], some e)
    | (q, none) => (q, [], q.checkHeader)

theorem parseIncremental_whole (chunks : List Bytes) (p : DimacsParser) (h : p.error = false) :
    parseIncremental p (chunks.map (·, false)) false = whole p chunks.flatten := by
  induction chunks generalizing p with
  | nil =>
    simp only [List.map_nil, parseIncremental, List.flatten_nil, whole, parseLoop]
    rcases p.eof with ⟨q, _ | e⟩ <;> simp
  | cons bs chunks ih =>
    simp only [List.map_cons, parseIncremental, List.flatten_cons]
    rw [parseChunk_ok h]
    have hq := parseLoop_error_iff p bs h
    rcases hl : p.parseLoop bs with ⟨q, _ | e⟩
    · simp only [Bool.false_eq_true, if_false]
      rw [hl] at hq
      rw [ih q (by simpa using hq)]
      simp only [whole, loop_append_ok hl]
    · simp only [whole, loop_append_err hl]

end Varisat.DimacsParser
