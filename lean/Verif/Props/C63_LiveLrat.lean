import Verif.Proof.Solver.LiveRun
import Verif.Proof.DimacsRange
import Verif.Props.C62_LratSolved
/-!
# C63: LRAT proofs of a running solver

A `WriteLrat` processor was added to a solver (`add_proof_processor`) before any clause, and the solver was called once. The
bytes it has written are those of an LRAT file that an LRAT checker accepts for the clauses of the user, in the order of the
calls of `add_clause`. If the answer was "unsatisfiable" and there were no assumptions, the file derives the empty clause.

The specification is the one of C62 (`Spec/LratCheck.lean`). Unlike there, the checker gets the clauses mixed with steps of
the solver, renamed by the solver, and without those added after the formula is known to be unsatisfiable.

Partial: one call of `solve`, no variables hidden or observed before it, and no two clauses, except for the last one, are units
that contradict each other (`C63.id_clash`).
-/
namespace Varisat.Solver
open Checker (Accepting ints evs addsOf)
open Api (Hist added Plain)
open Spec.Lrat Spec.LratCheck
open Sample (cl asm see_joint penv penv_accepting)

variable {α : Type} [LinearOrder α] {env : Out.Env} {f : Option Out.Format} {check : Bool}

theorem C63.unclash {A B : List (List Lit)} (h : List.Forall₂ (fun c d => copyCanonical c = copyCanonical d) A B)
    (hc : ¬ Checker.Clashing B.dropLast) : ¬ Checker.Clashing A.dropLast := by
  intro q
  have hd : List.Forall₂ (fun c d => copyCanonical c = copyCanonical d) A.dropLast B.dropLast := by
    rw [List.dropLast_eq_take, List.dropLast_eq_take, h.length_eq]
    exact List.forall₂_take _ h
  have key : ∀ {l : Lit}, (∃ c ∈ A.dropLast, ∀ m ∈ c, m = l) → ∃ c ∈ B.dropLast, ∀ m ∈ c, m = l := by
    rintro l ⟨c, h1, h2⟩
    obtain ⟨hlen, hg⟩ := List.forall₂_iff_get.1 hd
    obtain ⟨i, hi, rfl⟩ := List.getElem_of_mem h1
    have d1 := List.getElem_mem (hlen ▸ hi : i < B.dropLast.length)
    have d2 := hg i hi (hlen ▸ hi)
    simp only [List.get_eq_getElem] at d2
    generalize B.dropLast[i] = d at d1 d2
    exact ⟨d, d1, fun m hm => h2 m (mem_canonical.1 (d2 ▸ mem_canonical.2 hm))⟩
  obtain ⟨l, h1, h2⟩ := q
  exact hc ⟨l, key h1, key h2⟩

/-- The steps the processors have got after the first call of `solve`. -/
theorem C63.steps_partial (hproc : env.chk.hasProc = true) {s : St α} {o : Out.Sess} {h : Hist} {r : Nat}
    (x : Joint env f true s o (h ++ [(.solve, [r])])) (hns : NoSolve h) (hp : Plain h) (hs : C51.Small f s)
    (hcl : ¬ Clash (((added h).map ints).dropLast)) {c : Checker.St} (hc : o.proof.checker = some c) :
    Valid (start ((added h).map ints)) (evs c.out) ∧
      (NoAsm h → r = 0 → [] ∉ added h → Empties (evs c.out)) := by
  have hcl : ¬ Checker.Clashing (added h).dropLast := fun q => hcl (by rw [← List.map_dropLast]; exact Varisat.C62.clash q)
  obtain ⟨s1, Q, c0, c1, x1, l1, -, q1, q2, q3, q4⟩ := x.solved hns hp hs.1 hc
  obtain ⟨-, t2, -, t4⟩ := x1.tells hns hp l1
  have hcs := x1.clauses hns hp l1 hcl
  have hQ : ∀ c, ProofStep.addClause c ∉ Q := fun c hm => q1 _ hm
  refine ⟨?_, fun hasm hr hne => ?_⟩
  · have hv := Checker.live_valid hproc (C63.unclash hcs hcl) t2 hQ (fun v hm => q1 _ hm) q2 q3 q4
    exact Checker.valid_alike (Checker.start_alike hcs) (by show List.length _ = List.length _; simp [hcs.length_eq]) hv
  · have hre : Checker.Refutes c.out := by
      generalize hH : h ++ [((.solve : Api.Call), [r])] = H at x
      cases x with
      | new e => simp at hH
      | @call s1 _ o1 _ h1 op r1 e x he hj =>
        obtain ⟨rfl, e2⟩ := List.append_inj' hH rfl
        simp only [List.cons.injEq, and_true, Prod.mk.injEq] at e2
        obtain ⟨e2, rfl⟩ := e2
        obtain ⟨n, rfl⟩ := Op.call_solve.1 e2.symm
        subst hr
        obtain ⟨K, k1, -, k3⟩ := C51.unsat_checked x he hj hs hasm
        rw [hc] at k1
        cases k1
        exact k3
    obtain ⟨st, hst, hem⟩ := hre
    obtain ⟨o1, e1, e2, -⟩ := Checker.said_execs (Checker.Ran.init (env := env.chk)) (Checker.execs_append.2 ⟨c0, q2, q3⟩)
    obtain ⟨o2, f1, f2, -⟩ := Checker.said_conflicts q4
    have hout : c.out = o1 ++ o2 := by rw [f1, e1]; rfl
    cases st with
    | addClause id d =>
      exfalso
      obtain rfl : d = [] := hem
      rw [hout] at hst
      rcases List.mem_append.1 hst with hst | hst
      · obtain ⟨d, d1, d2⟩ := e2 id _ hst
        have hd : d ∈ addsOf s1.log := by
          unfold Checker.added at d1
          rw [List.flatMap_append, List.mem_append, List.mem_flatMap, List.mem_flatMap] at d1
          rcases d1 with ⟨y, y1, y2⟩ | ⟨y, y1, y2⟩
          · obtain ⟨st, z1, rfl⟩ := List.mem_map.1 y1
            rcases t2 st z1 with k | ⟨c', rfl⟩
            · cases st <;> first | exact k.elim | cases y2
            · rw [List.mem_singleton.1 y2]
              exact Checker.mem_addsOf z1
          · obtain ⟨st, z1, rfl⟩ := List.mem_map.1 y1
            cases st with
            | addClause c' => exact absurd z1 (hQ c')
            | _ => cases y2
        obtain ⟨d', d3, d4⟩ := t4 d hd
        rw [d4] at d2
        rw [canonical_nil d2.symm] at d3
        exact hne d3
      · obtain ⟨d, d1, _⟩ := f2 id _ hst
        cases d1
    | atClause id red d ps =>
      obtain rfl : d = [] := hem
      exact ⟨id, ps, List.mem_flatMap.2 ⟨_, hst, by simp [lratEvents]⟩⟩
    | _ => exact absurd hem id

/-- **C63**: the LRAT file. -/
theorem C63.file_partial (hproc : env.chk.hasProc = true) {s : St α} {o : Out.Sess} {h : Hist} {r : Nat}
    (x : Joint env f true s o (h ++ [(.solve, [r])])) (hns : NoSolve h) (hp : Plain h) (hs : C51.Small f s)
    (hcl : ¬ Clash (((added h).map ints).dropLast)) {c : Checker.St} (hc : o.proof.checker = some c) (binary : Bool) :
    ∃ lines, Varisat.C62.read binary (Lrat.output binary (c.out.map Lrat.Op.step)) = some lines ∧
      Valid (start ((added h).map ints)) (lines.flatMap Line.events) ∧
      (NoAsm h → r = 0 → [] ∉ added h → Empties (lines.flatMap Line.events)) := by
  obtain ⟨h1, h2⟩ := C63.steps_partial hproc x hns hp hs hcl hc
  obtain ⟨lines, k1, k2, k3⟩ := Varisat.C62.bytes h1 binary
  refine ⟨lines, k1, k2, fun hasm hr hne => ?_⟩
  obtain ⟨id, ps, hm⟩ := h2 hasm hr hne
  exact ⟨id, ps, k3 id [] ps hm⟩

/-! ### Concrete cases -/

/-- The hypotheses of `C63.file_partial` for some clauses and an answer, and the file. -/
def C63.Meets (cs : List (List Lit)) (r : Nat) (text : Bytes) : Prop :=
  ∃ (s : St Nat) (o : Out.Sess) (h : Hist) (c : Checker.St), Joint penv none true s o (h ++ [(.solve, [r])]) ∧ NoSolve h ∧ NoAsm h ∧
    Plain h ∧ C51.Small none s ∧ added h = cs ∧ ¬ Clash ((cs.map ints).dropLast) ∧ o.proof.checker = some c ∧
    Lrat.output false (c.out.map Lrat.Op.step) = text

/-- The results of some calls, the bound of `C51.Small`, and the textual LRAT file. -/
def C63.see (ops : List Op) : Option (List (List Nat) × Bool × Option Bytes) :=
  Sample.seeJoint none true (fun s o rs => (rs, decide (s.vars.gfs.len < 2 ^ 32),
    o.proof.checker.map fun c => Lrat.output false (c.out.map Lrat.Op.step))) ops

theorem C63.history (cs : List (List Lit)) :
    (List.map Op.call (cs.map .addClause)).zip (cs.map fun _ => ([] : List Nat)) = cs.map fun c => (.addClause c, []) := by
  rw [List.map_map]
  induction cs with
  | nil => rfl
  | cons c cs ih => simp only [List.map_cons, List.zip_cons_cons, ih]; rfl

theorem C63.meets {cs : List (List Lit)} {r : Nat} {text : Bytes} (hcl : ¬ Clash ((cs.map ints).dropLast))
    (h : C63.see (cs.map .addClause ++ [.solve 20]) = some (cs.map (fun _ => []) ++ [[r]], true, some text)) :
    C63.Meets cs r text := by
  obtain ⟨s, o, rs, h1, h2⟩ := see_joint h
  simp only [Prod.mk.injEq, decide_eq_true_eq, Option.map_eq_some_iff] at h2
  obtain ⟨rfl, h3, c, h4, h5⟩ := h2
  rw [List.map_append, List.zip_append (by simp), C63.history] at h1
  refine ⟨s, o, _, c, h1, fun y hy => ?_, fun y hy ls hl => ?_, fun y hy => ?_, ⟨h3, fun hf => by cases hf⟩, ?_, hcl, h4, h5⟩
  · obtain ⟨c, -, rfl⟩ := List.mem_map.1 hy; exact fun h => by cases h
  · obtain ⟨c, -, rfl⟩ := List.mem_map.1 hy; cases hl
  · obtain ⟨c, -, rfl⟩ := List.mem_map.1 hy; exact ⟨(fun u h => by cases h), (fun h => by cases h)⟩
  · clear h h1 hcl
    induction cs with
    | nil => rfl
    | cons c cs ih => unfold added at ih ⊢; simp [ih]

/-- For the examples. -/
theorem C63.no_clash {F : List (List Int)} (h : ∀ c ∈ F, ∀ d ∈ F, ∃ a ∈ c, ∃ b ∈ d, b ≠ -a) : ¬ Clash F := by
  rintro ⟨l, ⟨c, c1, c2⟩, d, d1, d2⟩
  obtain ⟨a, ha, b, hb, hab⟩ := h c c1 d d1
  exact hab (by rw [c2 a ha, d2 b hb])

/-- Several learned clauses, a repeated literal, a tautology. -/
example : C63.Meets (Cli.litsOf [[1, 2, 3], [-1, 2], [1, -2], [-1, -2], [2, 2, -3], [-3, 1, 3]]) 0
      (ascii "6 d 6 0\n7 1 0 3 5 1 0\n8 2 0 7 2 0\n9 0 7 8 4 0\n") ∧
    penv.chk.hasProc = true ∧ Accepting penv.chk :=
  ⟨C63.meets (C63.no_clash (by decide)) (by decide +kernel), rfl, penv_accepting⟩

/-- The last two clauses contradict each other. -/
example : C63.Meets (Cli.litsOf [[2, 3], [1], [-1]]) 0 (ascii "4 0 2 3 0\n") :=
  C63.meets (C63.no_clash (by decide)) (by decide +kernel)

/-- Without the last hypothesis the claim is false: the checker is not told the clause after two units that contradict each
other, and its id is used for the empty clause. -/
theorem C63.id_clash : ∃ (s : St Nat) (o : Out.Sess) (h : Hist) (c : Checker.St), Joint penv none true s o (h ++ [(.solve, [0])]) ∧
    NoSolve h ∧ NoAsm h ∧ Plain h ∧ C51.Small none s ∧ added h = Cli.litsOf [[1], [-1], [2]] ∧ o.proof.checker = some c ∧
    ¬ Valid (start ((added h).map ints)) (evs c.out) := by
  let cs := Cli.litsOf [[1], [-1], [2]]
  obtain ⟨s, o, rs, h1, h2⟩ := see_joint (f := none) (check := true)
    (g := fun s o rs => (rs, decide (s.vars.gfs.len < 2 ^ 32), o.proof.checker.map fun c => decide (evs c.out = [.add 2 [] [0, 1]])))
    (ops := cs.map .addClause ++ [.solve 20]) (x := (cs.map (fun _ => []) ++ [[0]], true, some true)) (by decide +kernel)
  simp only [Prod.mk.injEq, decide_eq_true_eq, Option.map_eq_some_iff] at h2
  obtain ⟨rfl, h3, c, h4, h5⟩ := h2
  rw [List.map_append, List.zip_append (by simp), C63.history] at h1
  refine ⟨s, o, _, c, h1, fun y hy => ?_, fun y hy ls hl => ?_, fun y hy => ?_, ⟨h3, fun hf => by cases hf⟩, rfl, h4, ?_⟩
  · obtain ⟨c, -, rfl⟩ := List.mem_map.1 hy; exact fun h => by cases h
  · obtain ⟨c, -, rfl⟩ := List.mem_map.1 hy; cases hl
  · obtain ⟨c, -, rfl⟩ := List.mem_map.1 hy; exact ⟨(fun u h => by cases h), (fun h => by cases h)⟩
  · rw [h5]
    exact fun h => absurd h.1.1 (by decide)

/-- Nor does it hold for further calls of `solve`: after two units that contradict each other, the last clauses, each of them
adds the empty clause, always with the same id. -/
theorem C63.twice : ∃ (s : St Nat) (o : Out.Sess) (h : Hist) (c : Checker.St),
    Joint penv none true s o (h ++ [(.solve, [0]), (.solve, [0])]) ∧ NoSolve h ∧ NoAsm h ∧ Plain h ∧ C51.Small none s ∧
    ¬ Clash (((added h).map ints).dropLast) ∧ o.proof.checker = some c ∧
    Lrat.output false (c.out.map Lrat.Op.step) = ascii "3 0 1 2 0\n3 0 1 2 0\n" ∧
    ¬ Valid (start ((added h).map ints)) (evs c.out) := by
  let cs := Cli.litsOf [[1], [-1]]
  obtain ⟨s, o, rs, h1, h2⟩ := see_joint (f := none) (check := true)
    (g := fun s o rs => (rs, decide (s.vars.gfs.len < 2 ^ 32), o.proof.checker.map fun c =>
      decide (evs c.out = [.add 2 [] [0, 1], .add 2 [] [0, 1]]) &&
      decide (Lrat.output false (c.out.map Lrat.Op.step) = ascii "3 0 1 2 0\n3 0 1 2 0\n")))
    (ops := cs.map .addClause ++ [.solve 20, .solve 20]) (x := (cs.map (fun _ => []) ++ [[0], [0]], true, some true)) (by decide +kernel)
  simp only [Prod.mk.injEq, decide_eq_true_eq, Option.map_eq_some_iff, Bool.and_eq_true] at h2
  obtain ⟨rfl, h3, c, h4, h5, h6⟩ := h2
  rw [List.map_append, List.zip_append (by simp), C63.history] at h1
  refine ⟨s, o, _, c, h1, fun y hy => ?_, fun y hy ls hl => ?_, fun y hy => ?_, ⟨h3, fun hf => by cases hf⟩, C63.no_clash (by decide), h4, h6, ?_⟩
  · obtain ⟨c, -, rfl⟩ := List.mem_map.1 hy; exact fun h => by cases h
  · obtain ⟨c, -, rfl⟩ := List.mem_map.1 hy; cases hl
  · obtain ⟨c, -, rfl⟩ := List.mem_map.1 hy; exact ⟨(fun u h => by cases h), (fun h => by cases h)⟩
  · rw [h5]
    exact fun h => absurd h.2.1.1 (by decide)

end Varisat.Solver
