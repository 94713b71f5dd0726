import Verif.Proof.LratFile
import Verif.Props.C20_CheckerSteps
import Verif.Props.C61_TranscriptLines
/-!
# C62: the LRAT files written by `--check`

A proof that is accepted by `varisat --check` is converted to LRAT with `--write-lrat` or `--write-clrat`. The bytes of the
file are those of an LRAT file, and all its lines are accepted by an LRAT checker that is given the formula: every clause
added has a new id and follows by unit propagation along its hints, which are ids of clauses at hand, and clauses deleted
are there. If `t UNSAT` was printed the file derives the empty clause.

What is read from the bytes and when a line is accepted is in `Spec/Lrat.lean` and `Spec/LratCheck.lean`.

Partial: the proof adds no clauses and deletes no variables, and no two input clauses, except for the last one, are units that
contradict each other. After such units later input clauses get no ids, and the file uses the ids of these clauses for
something else (`C62.id_clash`).
-/
namespace Varisat
open Checker (St Op execs checkProof CheckedStep evs ints Env)
open Spec.Lrat Spec.LratCheck

/-! ### Accepted proofs are right -/

theorem C62.hints_false {τ : Nat → Prop} {clause : Nat → Option (List Int)}
    (hs : ∀ i c, clause i = some c → (0 : Int) ∉ c ∧ ∃ x ∈ c, Spec.Drat.holds τ x) :
    ∀ {ids : List Nat} {known : List Int}, (∀ k ∈ known, k ≠ 0 ∧ Spec.Drat.holds τ k) → ¬ Hints clause known ids := by
  have neg : ∀ {known : List Int}, (∀ k ∈ known, k ≠ 0 ∧ Spec.Drat.holds τ k) → ∀ x, -x ∈ known → ¬ Spec.Drat.holds τ x := by
    intro known hk x hx
    obtain ⟨h1, h2⟩ := hk _ hx
    exact (Checker.forced_holds.holds_neg (by omega)).1 h2
  intro ids
  induction ids with
  | nil => intro known _ h; exact h
  | cons i ids ih =>
    intro known hk h
    cases ids with
    | nil =>
      obtain ⟨c, h1, h2⟩ := h
      obtain ⟨x, hx, hh⟩ := (hs i c h1).2
      exact neg hk x (h2 x hx) hh
    | cons j ids =>
      obtain ⟨c, h1, l, hl, -, -, h4, h5⟩ := h
      obtain ⟨h0, x, hx, hh⟩ := hs i c h1
      refine ih (known := l :: known) (fun k hm => ?_) h5
      rcases List.mem_cons.1 hm with rfl | hm
      · refine ⟨fun e => h0 (e ▸ hl), ?_⟩
        by_cases e : x = k
        · exact e ▸ hh
        · exact absurd hh (neg hk x (h4 x hx e))
      · exact hk k hm

/-- No assignment satisfies a formula that has an accepted LRAT proof with an empty clause. -/
theorem C62.sound {F : List (List Int)} {es : List Event} (hv : Valid (start F) es) (he : Empties es) (h0 : ∀ c ∈ F, (0 : Int) ∉ c)
    (h1 : ∀ id lits ps, Event.add id lits ps ∈ es → (0 : Int) ∉ lits) (τ : Nat → Prop) : ¬ Spec.Drat.Sat τ F := by
  intro hs
  have key : ∀ (es : List Event) (d : Db), (∀ i c, d.clause i = some c → (0 : Int) ∉ c ∧ ∃ x ∈ c, Spec.Drat.holds τ x) →
      (∀ id lits ps, Event.add id lits ps ∈ es → (0 : Int) ∉ lits) → Valid d es → ∀ id ps, Event.add id [] ps ∉ es := by
    intro es
    induction es with
    | nil => simp
    | cons e es ih =>
      intro d hd hz hv id ps hm
      cases e with
      | del i =>
        rcases List.mem_cons.1 hm with hm | hm
        · cases hm
        · refine ih _ (fun j c hj => ?_) (fun id lits ps h => hz id lits ps (by simp [h])) hv.2 id ps hm
          have hj : (if j = i then none else d.clause j) = some c := hj
          split at hj
          · cases hj
          · exact hd j c hj
      | add i lits hints =>
        have h0 := hz i lits hints (by simp)
        have hx : ∃ x ∈ lits, Spec.Drat.holds τ x := by
          by_contra hno
          refine C62.hints_false hd (fun k hk => ?_) hv.1.2
          obtain ⟨x, hx, rfl⟩ := List.mem_map.1 hk
          have hne : x ≠ 0 := fun e => h0 (e ▸ hx)
          exact ⟨by omega, (Checker.forced_holds.holds_neg hne).2 fun q => hno ⟨x, hx, q⟩⟩
        rcases List.mem_cons.1 hm with hm | hm
        · simp only [Event.add.injEq] at hm
          obtain ⟨x, hx, -⟩ := hx
          rw [← hm.2.1] at hx
          cases hx
        · refine ih _ (fun j c hj => ?_) (fun id lits ps h => hz id lits ps (by simp [h])) hv.2 id ps hm
          have hj : (if j = i then some lits else d.clause j) = some c := hj
          split at hj
          · cases hj; exact ⟨h0, hx⟩
          · exact hd j c hj
  obtain ⟨id, ps, hm⟩ := he
  refine key es _ (fun i c hi => ?_) h1 hv id ps hm
  have hi : F[i]? = some c := hi
  exact ⟨h0 c (List.mem_of_getElem? hi), hs c (List.mem_of_getElem? hi)⟩

/-! ### The files -/

/-- The LRAT file, depending on the format. -/
def C62.read (binary : Bool) : Bytes → Option (List Line) := if binary then readBinary else readText

theorem C62.clash {P : List (List Lit)} (h : Checker.Clashing P) : Clash (P.map ints) := by
  obtain ⟨l, ⟨c, h1, h2⟩, d, h3, h4⟩ := h
  refine ⟨l.toDimacs, ⟨_, List.mem_map_of_mem h1, fun m hm => ?_⟩, _, List.mem_map_of_mem h3, fun m hm => ?_⟩
  · obtain ⟨k, hk, rfl⟩ := Checker.of_mem_ints hm
    rw [h2 k hk]
  · obtain ⟨k, hk, rfl⟩ := Checker.of_mem_ints hm
    rw [h4 k hk, Checker.dimacs_neg]

theorem C62.events (o : List CheckedStep) : (o.map Lrat.Op.step).flatMap opEvents = evs o := by
  rw [List.flatMap_map]; rfl

/-- What is in the file, if all its steps are valid. -/
theorem C62.bytes {F : List (List Int)} {o : List CheckedStep} (hv : Valid (start F) (evs o)) (binary : Bool) :
    ∃ lines, C62.read binary (Lrat.output binary (o.map Lrat.Op.step)) = some lines ∧
      Valid (start F) (lines.flatMap Line.events) ∧
      ∀ id lits ps, Event.add id lits ps ∈ evs o → Event.add id lits ps ∈ lines.flatMap Line.events := by
  cases binary with
  | true =>
    obtain ⟨lines, h1, h2⟩ := C24.binary (o.map Lrat.Op.step)
    rw [C62.events] at h2
    exact ⟨lines, h1, by rw [h2]; exact hv, fun id lits ps h => by rw [h2]; exact h⟩
  | false =>
    obtain ⟨lines, pre, suf, h1, h2, h3, h4⟩ := C24.text_partial (o.map Lrat.Op.step)
    have he : evs o = pre.flatMap opEvents ++ suf.flatMap opEvents := by rw [← C62.events, h2, List.flatMap_append]
    refine ⟨lines, h1, ?_, fun id lits ps h => ?_⟩
    · rw [h3]
      rw [he, Checker.lrat_append] at hv
      exact hv.1
    · rw [h3]
      rw [he] at h
      rcases List.mem_append.1 h with h | h
      · exact h
      · obtain ⟨op, ho, hx⟩ := List.mem_flatMap.1 h
        have := h4 op ho
        cases op with
        | flush => simp [opEvents] at hx
        | step st => cases st <;> simp [opEvents, lratEvents, Lrat.Op.input] at hx this

theorem C62.valid {env : Env} {fill : Nat → Nat} {cs : List (List Lit)} {bs : Bytes} {s0 s : St} (hp : env.hasProc = true)
    (h0 : execs env (cs.map .add) {} = .ok () s0) (hend : s0.ended = false) (h : checkProof env fill bs s0 = .ok () s)
    (hc : ¬ Clash ((cs.map ints).dropLast)) {sts : List ProofStep} {rest : Bytes}
    (hr : readSteps fill (sts.length + 1) bs = .ok (sts ++ [.end_], rest)) (he : ProofStep.end_ ∉ sts)
    (hna : ∀ c, ProofStep.addClause c ∉ sts) (hnd : ∀ v, ProofStep.deleteVar v ∉ sts) :
    Valid (start (cs.map ints)) (evs s.out) := by
  have hc : ¬ Checker.Clashing cs.dropLast := fun q => hc (by rw [← List.map_dropLast]; exact C62.clash q)
  obtain ⟨sts', rest', s1, k1, k2, k3, k4⟩ := Checker.checkProof_ok hend h
  obtain ⟨rfl, rfl⟩ := Checker.readSteps_end_unique fill _ _ _ _ _ he k2 hr k1
  have hl := Checker.loaded_execs hc (P := []) (List.nil_append _).symm (Checker.Ran.init (env := env)) (Checker.Loaded.init cs) h0
  obtain ⟨d, hd⟩ := C21.check_proof_replay env hp fill (cs.map .add) bs s0 s h0 hend h (by simp [Checker.NoDeleteVar])
    (by
      intro sts' rest' v q q' hv
      obtain ⟨rfl, -⟩ := Checker.readSteps_end_unique fill _ _ _ _ _ he q' hr q
      exact hnd v hv)
  have hran := Checker.ran_execs (Checker.Ran.init (env := env)) h0
  have m1 := Checker.mute_execs hran (by
    intro c hm
    rcases List.mem_append.1 hm with hm | hm
    · exact hna c hm
    · simp at hm) k3
  obtain ⟨o, ho, hm⟩ := m1.trans (Checker.mute_conflicts k4)
  obtain ⟨⟨d0, q1, q2, q3⟩, q4, q5, q6, q7, -⟩ := hl
  rw [ho] at hd ⊢
  obtain ⟨d1, r1, r2⟩ := Checker.run_split hd
  have e := Checker.run_det r1 q1
  subst e
  rw [Checker.evs_append, Checker.lrat_append]
  refine ⟨q5, (Checker.Sim.run ⟨fun i c hi => ?_, ?_⟩ r2 hm).1⟩
  · obtain ⟨-, c0, -, x3, x4⟩ := q3 i c hi
    refine ⟨_, x4, fun x => ?_⟩
    constructor
    · intro hx
      obtain ⟨l, hl, rfl⟩ := Checker.of_mem_ints hx
      exact Checker.mem_ints.2 ((x3 l).1 hl)
    · intro hx
      obtain ⟨l, hl, rfl⟩ := Checker.of_mem_ints hx
      exact Checker.mem_ints.2 ((x3 l).2 hl)
  · rw [q6, q2.next, q4]

/-- **C62** for `Checker::check_proof` with a `WriteLrat` processor. -/
theorem C62.checked_partial {env : Env} {fill : Nat → Nat} {cs : List (List Lit)} {bs : Bytes} {s0 s : St} (hp : env.hasProc = true)
    (h0 : execs env (cs.map .add) {} = .ok () s0) (hend : s0.ended = false) (h : checkProof env fill bs s0 = .ok () s) (binary : Bool) :
    ∃ sts rest, readSteps fill (sts.length + 1) bs = .ok (sts ++ [.end_], rest) ∧ ProofStep.end_ ∉ sts ∧
      (¬ Clash ((cs.map ints).dropLast) → (∀ c, ProofStep.addClause c ∉ sts) → (∀ v, ProofStep.deleteVar v ∉ sts) →
        ∃ lines, C62.read binary (Lrat.output binary (s.out.map Lrat.Op.step)) = some lines ∧
          Valid (start (cs.map ints)) (lines.flatMap Line.events) ∧
          (.unsat ∈ s.tout → Empties (lines.flatMap Line.events))) := by
  obtain ⟨sts, rest, s1, k1, k2, k3, k4⟩ := Checker.checkProof_ok hend h
  refine ⟨sts, rest, k1, k2, fun hc hna hnd => ?_⟩
  obtain ⟨lines, q1, q2, q3⟩ := C62.bytes (C62.valid hp h0 hend h hc k1 k2 hna hnd) binary
  refine ⟨lines, q1, q2, fun hu => ?_⟩
  have ht : Checker.TInv s := by
    have ht1 : Checker.TInv s1 := Checker.tinv_execs (s := {}) (by intro h; simp at h) (Checker.execs_append.2 ⟨s0, h0, k3⟩)
    have k4 : (match s1.unitConflict with
      | some (a, b) => Checker.emit env (.atClause s1.nextId false [] [a, b])
      | none => pure ()) s1 = .ok () s := k4
    cases hc : s1.unitConflict with
    | some ab =>
      rw [hc] at k4
      have k4 : Checker.emit env (.atClause s1.nextId false [] [ab.1, ab.2]) s1 = .ok () s := k4
      have := Checker.pres_emit env (.atClause s1.nextId false [] [ab.1, ab.2]) s1
      rw [k4] at this
      exact this.tinv ht1
    | none => rw [hc] at k4; cases k4; exact ht1
  obtain ⟨id, red, ps, hm⟩ := ht hu
  exact ⟨id, ps, q3 id [] ps (List.mem_flatMap.2 ⟨_, hm, by simp [lratEvents]⟩)⟩

namespace Cli

/-- **C62**: the file of `--write-lrat` or `--write-clrat`. -/
theorem C62.file_partial {env : Env} {log : Log} {args : CheckArgs} {out : Bytes} (hp : env.hasProc = true) (hl : log.OneLine)
    (h : runCheck env log args = some (out, 0)) (binary : Bool) :
    ∃ i f cs bs sts rest, args.input = some i ∧ DimacsParser.parse [i.chunks.flatten] = .ok f ∧ f.iter = some cs ∧
      args.proof = some bs ∧ readSteps args.fill (sts.length + 1) bs = .ok (sts ++ [.end_], rest) ∧ ProofStep.end_ ∉ sts ∧
      (¬ Clash ((cs.map ints).dropLast) → (∀ c, ProofStep.addClause c ∉ sts) → (∀ v, ProofStep.deleteVar v ∉ sts) →
        ∃ lines, Varisat.C62.read binary (lratFile env args binary) = some lines ∧
          Valid (start (cs.map ints)) (lines.flatMap Line.events) ∧
          (ascii "t UNSAT" ∈ outLines out → Empties (lines.flatMap Line.events))) := by
  obtain ⟨s, a, ⟨i, p, fs, s0, bs, h1, h2, h3, h4, h5, h6⟩, rfl, ha⟩ := runCheck_accepted hl h
  obtain ⟨f, css, k1, k2, k3⟩ := C05.taken_is_parse _ p fs h3
  rw [List.map_map, show ((fun x => x.1) ∘ fun x : Bytes => (x, true)) = id from rfl, List.map_id] at k1
  have hx := addAll_execs fs k2 h4
  obtain ⟨sts, rest, q1, q0, q2⟩ := Varisat.C62.checked_partial hp hx (adds_ended _ hx) h6 binary
  refine ⟨i, f, css.flatten, bs, sts, rest, h1, k1, k3, h5, q1, q0, fun hc hna hnd => ?_⟩
  obtain ⟨lines, r1, r2, r3⟩ := q2 hc hna hnd
  have hcr : args.creates = true := by
    cases hcr : args.creates with
    | true => rfl
    | false =>
      unfold runCheck at h
      simp [h1, hcr] at h
  have hf : lratFile env args binary = Lrat.output binary (s.out.map Lrat.Op.step) := by
    unfold lratFile
    simp only [h1, hcr, h2, h3, h4, h5, h6, Bool.not_true, Bool.false_eq_true, if_false]
  have hpl := ((Comments.plainly ha).append (Plainly.steps s.tout)).congr (v := .unsat ∈ s.tout) (by simp)
  obtain ⟨-, v2⟩ := hpl.verdict (ascii "VERIFIED") (by decide)
  refine ⟨lines, by rw [hf]; exact r1, r2, fun hu => r3 (v2.1 ?_)⟩
  rw [show ascii "s VERIFIED" = ascii "s " ++ ascii "VERIFIED" by decide] at hu
  simpa only [List.append_assoc] using hu

/-! ### Test cases -/

open Demo (cl hash)

/-- Clauses added and deleted; the third and fourth clause of the input get no number in the checker. -/
def lratSteps : List ProofStep := [.atClause false (cl [1]) [hash [1, 2], hash [1, -2]], .deleteClause (cl [1, 2]) .satisfied,
  .atClause true (cl []) [hash [-1, 2], hash [-1, -2]]]

def lratArgs : CheckArgs where
  input := some ⟨[ascii "1 2 0 1 -2 0 1 -2 0 2 -2 0 -1 2 0 -1 -2 0"], false⟩
  proof := some ((lratSteps ++ [ProofStep.end_]).flatMap Fmt.writeStep)

theorem no_clash {F : List (List Int)} (h : ∀ c ∈ F, ∃ a ∈ c, ∃ b ∈ c, a ≠ b) : ¬ Clash F := by
  rintro ⟨l, ⟨c, hc, hl⟩, -⟩
  obtain ⟨a, ha, b, hb, hab⟩ := h c hc
  exact hab ((hl a ha).trans (hl b hb).symm)

/-- The hypotheses of `C62.file_partial`. -/
example : runCheck Demo.env {} lratArgs = some (ascii "t ADD 6 CLAUSES \nt UNSAT\ns VERIFIED\n", 0) ∧ Demo.env.hasProc = true ∧
    ¬ Clash ([[1, 2], [1, -2], [1, -2], [2, -2], [-1, 2], [-1, -2]] : List (List Int)).dropLast ∧
    (∀ c, ProofStep.addClause c ∉ lratSteps) ∧ (∀ v, ProofStep.deleteVar v ∉ lratSteps) := by
  refine ⟨by decide +kernel, rfl, no_clash (by decide), fun c h => ?_, fun v h => ?_⟩ <;> simp [lratSteps] at h

/-- The files. -/
example : lratFile Demo.env lratArgs false = ascii "3 d 3 4 0\n7 1 0 1 2 0\n7 d 1 0\n8 0 7 5 6 0\n" ∧
    lratFile Demo.env lratArgs true = [100, 6, 8, 0, 97, 14, 2, 0, 2, 4, 0, 100, 2, 0, 97, 16, 0, 14, 10, 12, 0] := by
  constructor <;> decide +kernel

/-- The hypotheses of `Varisat.C62.sound`. -/
example : Valid (start [[1, 2], [1, -2], [-1, 2], [-1, -2]]) [.add 4 [1] [0, 1], .del 0, .add 5 [] [4, 2, 3]] ∧
    Empties [.add 4 [1] [0, 1], .del 0, .add 5 [] [4, 2, 3]] := by
  refine ⟨⟨⟨by decide, _, rfl, 2, by decide, by decide, by decide, by decide, _, rfl, by decide⟩, rfl,
    ⟨by decide, _, rfl, 1, by decide, by decide, by decide, by decide, _, rfl, 2, by decide, by decide, by decide, by decide, _, rfl, by decide⟩,
    trivial⟩, 5, [4, 2, 3], by decide⟩

/-- The units contradict each other. The third clause of the input gets no id, and its id is used for the empty clause.
The proof is verified, and no LRAT checker that numbers the clauses of the input accepts the file. -/
theorem C62.id_clash : ∃ args out, args.input = some ⟨[ascii "1 0 -1 0 2 0"], false⟩ ∧ runCheck Demo.env {} args = some (out, 0) ∧
    ascii "t UNSAT" ∈ outLines out ∧ lratFile Demo.env args false = ascii "3 0 1 2 0\n" ∧
    ∃ lines, Varisat.C62.read false (lratFile Demo.env args false) = some lines ∧
      ¬ Valid (start [[1], [-1], [2]]) (lines.flatMap Line.events) := by
  refine ⟨{ input := some ⟨[ascii "1 0 -1 0 2 0"], false⟩, proof := some (Fmt.writeStep .end_) },
    ascii "t ADD 2 CLAUSES \nt UNSAT\ns VERIFIED\n", rfl, by decide +kernel, by decide +kernel, by decide +kernel,
    [.add 2 [] [0, 1]], by decide +kernel, fun h => ?_⟩
  exact absurd h.1.1 (by decide)

end Cli
end Varisat
