import Verif.Proof.Lrat
import Mathlib.Data.List.Induction
/-!
# C24: LRAT output can be read back; C25: DRAT output can be read back
-/
namespace Varisat
open Spec.Lrat Checker Lrat

/-- What a checked step means for a consumer of an LRAT file: input clauses get their ids
implicitly, duplicates and tautologies among them are dropped at once, derived clauses are added
with their hints, deletions that keep the clause as redundant delete nothing. -/
def lratEvents : CheckedStep → List Event
  | .duplicatedClause id _ _ => [.del id]
  | .tautologicalClause id _ => [.del id]
  | .atClause id _ clause hints => [.add id (clause.map Lit.toDimacs) hints]
  | .deleteClause id _ => [.del id]
  | .deleteAtClause id keep _ _ => if keep then [] else [.del id]
  | .deleteRatClause id keep _ _ => if keep then [] else [.del id]
  | .addClause .. | .userVar .. | .makeIrredundant .. | .model .. | .assumptions ..
  | .failedAssumptions .. => []

def opEvents : Lrat.Op → List Event
  | .step s => lratEvents s
  | .flush => []

/-- A use of the writer that only reports an input clause (or flushes). -/
def Lrat.Op.input : Lrat.Op → Prop
  | .step (.addClause ..) | .step (.duplicatedClause ..) | .step (.tautologicalClause ..)
  | .flush => True
  | _ => False

namespace Lrat

def A.events (a : A) : List Event :=
  (a.lines.flatMap fun l => (l.line true).events) ++ (a.opn.elim [] fun o => o.2.map .del)

theorem events_line (b : Bool) (l : ALine) : (l.line b).events = (l.line true).events := by
  cases l <;> rfl

theorem events_lines (b : Bool) (ls : List ALine) :
    (ls.map (ALine.line b)).flatMap Line.events = ls.flatMap fun l => (l.line true).events := by
  rw [flatMap_map']
  congr 1; funext l; exact events_line b l

theorem A.events_close (a : A) : a.close.events = a.events := by
  rcases a with ⟨lines, opn, last, buf⟩
  cases opn <;> simp [A.events, A.close, ALine.line, Line.events]

theorem A.events_del (a : A) (ids : List Nat) : (a.del ids).events = a.events ++ ids.map .del := by
  rcases a with ⟨lines, opn, last, buf⟩
  cases opn <;> simp [A.events, A.del]

theorem A.events_last (a : A) (n : Nat) : ({ a with last := n } : A).events = a.events := rfl
theorem A.events_buf (a : A) (b : List Nat) : ({ a with buf := b } : A).events = a.events := rfl

theorem A.buf_del (a : A) (ids : List Nat) : (a.del ids).buf = a.buf := by
  rcases a with ⟨lines, opn, last, buf⟩; cases opn <;> rfl
theorem A.buf_close (a : A) : a.close.buf = a.buf := by
  rcases a with ⟨lines, opn, last, buf⟩; cases opn <;> rfl
theorem A.last_del (a : A) (ids : List Nat) : (a.del ids).last = a.last := by
  rcases a with ⟨lines, opn, last, buf⟩; cases opn <;> rfl
theorem A.last_close (a : A) : a.close.last = a.last := by
  rcases a with ⟨lines, opn, last, buf⟩; cases opn <;> rfl

/-- Effect of the second `match` for steps other than input clauses. -/
theorem A.write_other (binary : Bool) (a : A) (s : CheckedStep) (h : ¬ (Op.step s).input) :
    (a.write binary s).events = a.events ++ lratEvents s ∧ (a.write binary s).buf = a.buf := by
  cases s with
  | addClause => exact absurd trivial h
  | duplicatedClause => exact absurd trivial h
  | tautologicalClause => exact absurd trivial h
  | atClause id r c ps =>
    refine ⟨?_, a.buf_close⟩
    have := a.events_close
    simp only [A.write, A.events, close_opn, Option.elim, List.append_nil] at this ⊢
    rw [List.flatMap_append, this]
    rfl
  | deleteClause id c => exact ⟨a.events_del [id], a.buf_del [id]⟩
  | deleteAtClause id keep c ps =>
    cases keep
    · exact ⟨a.events_del [id], a.buf_del [id]⟩
    · exact ⟨(List.append_nil _).symm, rfl⟩
  | deleteRatClause id keep c ps =>
    cases keep
    · exact ⟨a.events_del [id], a.buf_del [id]⟩
    · exact ⟨(List.append_nil _).symm, rfl⟩
  | _ => exact ⟨(List.append_nil _).symm, rfl⟩

/-- The first `match`, when it applies. -/
theorem A.flush_other (a : A) (s : CheckedStep) (h : ∀ i c, s ≠ .addClause i c)
    (h' : ∀ i j c, s ≠ .duplicatedClause i j c) :
    (a.flush s).events = a.events ++ a.buf.map .del ∧ (a.flush s).buf = [] := by
  have key : (if a.buf ≠ [] then { a with buf := [] }.del a.buf else a).events =
      a.events ++ a.buf.map .del ∧
      (if a.buf ≠ [] then { a with buf := [] }.del a.buf else a).buf = [] := by
    split
    · exact ⟨A.events_del { a with buf := [] } a.buf, A.buf_del { a with buf := [] } a.buf⟩
    · rename_i hb
      have hb : a.buf = [] := by simpa using hb
      exact ⟨by simp [hb], hb⟩
  cases s <;> first | exact key | exact absurd rfl (h _ _) | exact absurd rfl (h' _ _ _)

theorem events_binary (ops : List Op) (a : A) (ha : a.buf = []) :
    (ops.foldl (A.op true) a).events = a.events ++ ops.flatMap opEvents ∧
    (ops.foldl (A.op true) a).buf = [] := by
  induction ops generalizing a with
  | nil => exact ⟨(List.append_nil _).symm, ha⟩
  | cons o ops ih =>
    have key : (a.op true o).events = a.events ++ opEvents o ∧ (a.op true o).buf = [] := by
      cases o with
      | flush => exact ⟨by simp [A.op, A.events_close, opEvents], by simp [A.op, A.buf_close, ha]⟩
      | step s =>
        have hf : a.flush s = a := by
          cases s <;> simp [A.flush, ha]
        simp only [A.op, hf]
        cases s with
        | addClause => exact ⟨(List.append_nil _).symm, ha⟩
        | duplicatedClause id s c =>
          exact ⟨A.events_del { a with last := id } [id], by
            rw [← ha]; exact A.buf_del { a with last := id } [id]⟩
        | tautologicalClause id c =>
          exact ⟨A.events_del { a with last := id } [id], by
            rw [← ha]; exact A.buf_del { a with last := id } [id]⟩
        | _ => exact ⟨(A.write_other true a _ id).1, by rw [(A.write_other true a _ id).2, ha]⟩
    have := ih (a.op true o) key.2
    rw [key.1] at this
    simpa using this

theorem events_text (ops : List Op) : ∃ pre suf, ops = pre ++ suf ∧
    (ops.foldl (A.op false) {}).events = pre.flatMap opEvents ∧
    (ops.foldl (A.op false) {}).buf.map Event.del = suf.flatMap opEvents ∧
    ∀ o ∈ suf, o.input := by
  induction ops using List.reverseRecOn with
  | nil => exact ⟨[], [], rfl, rfl, rfl, by simp⟩
  | append_singleton ops o ih =>
    obtain ⟨pre, suf, rfl, he, hb, hin⟩ := ih
    rw [List.foldl_append, List.foldl_cons, List.foldl_nil]
    generalize (pre ++ suf).foldl (A.op false) {} = a at he hb
    have hall : a.events ++ a.buf.map .del = (pre ++ suf).flatMap opEvents := by
      rw [List.flatMap_append, he, hb]
    have ext : (a.op false o).events = a.events → o.input →
        (a.op false o).buf.map Event.del = a.buf.map .del ++ opEvents o →
        ∃ pre' suf', pre ++ suf ++ [o] = pre' ++ suf' ∧
        (a.op false o).events = pre'.flatMap opEvents ∧
        (a.op false o).buf.map Event.del = suf'.flatMap opEvents ∧ ∀ o ∈ suf', o.input := by
      intro h1 h2 h3
      refine ⟨pre, suf ++ [o], by simp, by rw [h1, he], ?_, ?_⟩
      · rw [h3, hb]; simp
      · intro x hx
        simp only [List.mem_append, List.mem_singleton] at hx
        rcases hx with hx | rfl
        · exact hin x hx
        · exact h2
    cases o with
    | flush =>
      exact ext (A.events_close a) trivial (by simp [A.op, A.buf_close, opEvents])
    | step s =>
      have other : ¬ (Op.step s).input → ∃ pre' suf', pre ++ suf ++ [Op.step s] = pre' ++ suf' ∧
          (a.op false (.step s)).events = pre'.flatMap opEvents ∧
          (a.op false (.step s)).buf.map Event.del = suf'.flatMap opEvents ∧
          ∀ o ∈ suf', o.input := by
        intro hs
        have hf := A.flush_other a s (by rintro i c rfl; exact hs trivial)
          (by rintro i j c rfl; exact hs trivial)
        have hw := A.write_other false (a.flush s) s hs
        refine ⟨pre ++ suf ++ [.step s], [], by simp, ?_, ?_, by simp⟩
        · show ((a.flush s).write false s).events = _
          rw [hw.1, hf.1, hall]; simp [opEvents]
        · show ((a.flush s).write false s).buf.map Event.del = _
          rw [hw.2, hf.2]; rfl
      cases s with
      | addClause id c => exact ext rfl trivial (by simp [A.op, A.flush, A.write, opEvents, lratEvents])
      | duplicatedClause id s c =>
        exact ext rfl trivial
          (by simp [A.op, A.flush, A.write, A.skipped, opEvents, lratEvents])
      | tautologicalClause id c =>
        have hf := A.flush_other a (.tautologicalClause id c) (by simp) (by simp)
        refine ⟨pre ++ suf, [.step (.tautologicalClause id c)], rfl, ?_, ?_, ?_⟩
        · show (a.flush (.tautologicalClause id c)).events = _
          rw [hf.1, hall]
        · show ((a.flush (.tautologicalClause id c)).buf ++ [id]).map Event.del = _
          rw [hf.2]; rfl
        · intro o ho
          simp only [List.mem_singleton] at ho
          subst ho; trivial
      | _ => exact other id

theorem close_events (binary : Bool) (a : A) :
    (a.close.lines.map (ALine.line binary)).flatMap Line.events = a.events := by
  rw [events_lines, ← A.events_close, A.events, close_opn]; simp

end Lrat

/-- **C24**, compact binary format: for every use of the writer, the bytes it leaves behind are
read back by the reader of `Spec.Lrat`, and what is read is every reported addition, with its id,
literals and hints, and every reported deletion, in the order in which they were reported. -/
theorem C24.binary (ops : List Lrat.Op) : ∃ lines,
    readBinary (Lrat.output true ops) = some lines ∧
    lines.flatMap Line.events = ops.flatMap opEvents := by
  refine ⟨_, read_output true ops, ?_⟩
  rw [close_events]
  simpa [A.events] using (events_binary ops {} rfl).1

/-- **C24**, textual format: the bytes are read back to the reported events, in order, of all uses
of the writer up to some point (`pre`); after that point there are only reports of input clauses.
Missing for the full property: the deletions of the last duplicated or tautological input clauses
may be absent (`suf`), see `C24.text_loses_deletions`. -/
theorem C24.text_partial (ops : List Lrat.Op) : ∃ lines pre suf,
    readText (Lrat.output false ops) = some lines ∧ ops = pre ++ suf ∧
    lines.flatMap Line.events = pre.flatMap opEvents ∧ ∀ o ∈ suf, o.input := by
  obtain ⟨pre, suf, h1, h2, h3, h4⟩ := events_text ops
  refine ⟨_, pre, suf, read_output false ops, h1, ?_, h4⟩
  rw [close_events, h2]

/-- Nothing is missing from a textual file if the last report is not about an input clause (as in
every proof that ends with a derived clause or a deletion). -/
theorem C24.text_complete (ops : List Lrat.Op) (s : CheckedStep) (h : ¬ (Lrat.Op.step s).input) :
    ∃ lines, readText (Lrat.output false (ops ++ [.step s])) = some lines ∧
    lines.flatMap Line.events = (ops ++ [Lrat.Op.step s]).flatMap opEvents := by
  obtain ⟨lines, pre, suf, h1, h2, h3, h4⟩ := C24.text_partial (ops ++ [.step s])
  refine ⟨lines, h1, ?_⟩
  rcases List.eq_nil_or_concat suf with rfl | ⟨suf', o, rfl⟩
  · rw [h3, h2]; simp
  · rw [List.concat_eq_append, ← List.append_assoc] at h2
    have := List.append_inj_right' h2 rfl
    simp only [List.cons.injEq, and_true] at this
    subst this
    exact absurd (h4 _ (by simp)) h

/-- The full property is false of the textual format: a duplicated input clause whose deletion
never reaches the file. -/
theorem C24.text_loses_deletions : ∃ ops lines,
    readText (Lrat.output false ops) = some lines ∧
    lines.flatMap Line.events ≠ ops.flatMap opEvents :=
  ⟨[Lrat.Op.step (.addClause 0 [⟨0⟩]), .step (.duplicatedClause 1 0 [⟨0⟩]), .step (.model [⟨0⟩, ⟨2⟩]),
    .step (.duplicatedClause 2 0 [⟨0⟩])], [.del (some 1) [1]], by decide +kernel, by decide⟩

/-- The id a step gives to a clause. -/
def introduces : CheckedStep → Option Nat
  | .addClause id _ | .duplicatedClause id _ _ | .tautologicalClause id _
  | .atClause id _ _ _ => some id
  | _ => none

def Lrat.Op.introduces : Lrat.Op → Option Nat
  | .step s => Varisat.introduces s
  | .flush => none

/-- Ids are handed out in increasing order (the checker does, `C21`). -/
def Increasing (ops : List Lrat.Op) : Prop :=
  (ops.filterMap Lrat.Op.introduces).Pairwise (· ≤ ·)

/-- The number a textual line starts with. -/
def Spec.Lrat.Line.number : Line → Nat
  | .add id _ _ => id
  | .del stamp _ => stamp.getD 0

namespace Lrat

def ALine.number : ALine → Nat
  | .add id _ _ => id
  | .del s _ => s

def A.numbers (a : A) : List Nat := a.lines.map ALine.number ++ (a.opn.elim [] fun o => [o.1])

/-- Line numbers so far are in order and at most the last id. -/
def A.Ok (a : A) : Prop := a.numbers.Pairwise (· ≤ ·) ∧ ∀ n ∈ a.numbers, n ≤ a.last

theorem A.Ok.close {a : A} (h : a.Ok) : a.close.Ok := by
  rcases a with ⟨lines, opn, last, buf⟩
  cases opn <;> simpa [A.Ok, A.numbers, A.close, ALine.number] using h

theorem A.Ok.del {a : A} (h : a.Ok) (ids : List Nat) : (a.del ids).Ok := by
  rcases a with ⟨lines, opn, last, buf⟩
  cases opn with
  | some o => simpa [A.Ok, A.numbers, A.del] using h
  | none =>
    simp only [A.Ok, A.numbers, Option.elim, List.append_nil] at h
    refine ⟨?_, ?_⟩
    · simp only [A.numbers, A.del, Option.elim, List.pairwise_append]
      exact ⟨h.1, by simp, fun x hx y hy => by
        simp only [List.mem_singleton] at hy; subst hy; exact h.2 x hx⟩
    · intro n hn
      simp only [A.numbers, A.del, Option.elim, List.mem_append, List.mem_singleton] at hn
      rcases hn with hn | rfl
      · exact h.2 n hn
      · exact Nat.le_refl _

theorem A.Ok.last {a : A} (h : a.Ok) {n : Nat} (hn : a.last ≤ n) : ({ a with last := n } : A).Ok :=
  ⟨h.1, fun m hm => Nat.le_trans (h.2 m hm) hn⟩

theorem A.Ok.buf {a : A} (h : a.Ok) (b : List Nat) : ({ a with buf := b } : A).Ok := h

theorem A.Ok.flush {a : A} (h : a.Ok) (s : CheckedStep) :
    (a.flush s).Ok ∧ (a.flush s).last = a.last := by
  have key : (if a.buf ≠ [] then { a with buf := [] }.del a.buf else a).Ok ∧
      (if a.buf ≠ [] then { a with buf := [] }.del a.buf else a).last = a.last := by
    split
    · exact ⟨(h.buf []).del _, A.last_del _ _⟩
    · exact ⟨h, rfl⟩
  cases s <;> first | exact key | exact ⟨h, rfl⟩

theorem A.Ok.op {a : A} (h : a.Ok) (b : Bool) (o : Op)
    (ho : ∀ n, o.introduces = some n → a.last ≤ n) :
    (a.op b o).Ok ∧ (a.op b o).last =
      o.introduces.getD a.last := by
  cases o with
  | flush => exact ⟨h.close, a.last_close⟩
  | step s =>
    obtain ⟨hf, hl⟩ := h.flush s
    simp only [A.op]
    rw [← hl] at ho ⊢
    generalize a.flush s = a' at hf ho
    have sk : ∀ n, a'.last ≤ n → (a'.skipped b n).Ok ∧ (a'.skipped b n).last = n := by
      intro n hn
      cases b
      · exact ⟨(hf.last hn).buf _, rfl⟩
      · exact ⟨(hf.last hn).del [n], A.last_del _ _⟩
    cases s with
    | addClause id c => exact ⟨hf.last (ho id rfl), rfl⟩
    | duplicatedClause id s c => exact sk id (ho id rfl)
    | tautologicalClause id c => exact sk id (ho id rfl)
    | atClause id r c ps =>
      refine ⟨?_, rfl⟩
      have hn : a'.close.last ≤ id := by rw [A.last_close]; exact ho id rfl
      have hc := hf.close
      have ho := close_opn a'
      simp only [A.Ok, A.numbers, ho, Option.elim, List.append_nil] at hc
      refine ⟨?_, ?_⟩
      · simp only [A.numbers, A.write, ho, Option.elim, List.append_nil, List.map_append,
          List.map_cons, List.map_nil, ALine.number, List.pairwise_append]
        exact ⟨hc.1, by simp, fun x hx y hy => by
          simp only [List.mem_singleton] at hy; subst hy; exact Nat.le_trans (hc.2 x hx) hn⟩
      · intro n hm
        simp only [A.numbers, A.write, ho, Option.elim, List.append_nil, List.map_append,
          List.map_cons, List.map_nil, ALine.number, List.mem_append, List.mem_singleton] at hm
        rcases hm with hm | rfl
        · exact Nat.le_trans (hc.2 n hm) hn
        · exact Nat.le_refl _
    | deleteClause id c => exact ⟨hf.del _, A.last_del _ _⟩
    | deleteAtClause id keep c ps =>
      cases keep
      · exact ⟨hf.del _, A.last_del _ _⟩
      · exact ⟨hf, rfl⟩
    | deleteRatClause id keep c ps =>
      cases keep
      · exact ⟨hf.del _, A.last_del _ _⟩
      · exact ⟨hf, rfl⟩
    | _ => exact ⟨hf, rfl⟩

theorem A.Ok.ops (b : Bool) (ops : List Op) (a : A) (h : a.Ok) (hi : Increasing ops)
    (hl : ∀ n ∈ ops.filterMap Op.introduces, a.last ≤ n) :
    (ops.foldl (A.op b) a).Ok := by
  induction ops generalizing a with
  | nil => exact h
  | cons o ops ih =>
    simp only [Increasing, List.filterMap_cons] at hi hl
    rw [List.foldl_cons]
    cases ho : o.introduces with
    | none =>
      rw [ho] at hi hl
      obtain ⟨h1, h2⟩ := h.op b o (by intro n hn; rw [ho] at hn; cases hn)
      rw [ho] at h2
      exact ih _ h1 hi (by rw [h2]; exact hl)
    | some m =>
      rw [ho] at hi hl
      simp only [List.pairwise_cons] at hi
      obtain ⟨h1, h2⟩ := h.op b o (by
        intro n hn; rw [ho] at hn; cases hn; exact hl m (by simp))
      rw [ho] at h2
      exact ih _ h1 hi.2 (by rw [h2]; exact hi.1)

end Lrat

/-- The lines of a textual LRAT file are numbered in order, as the format demands, whenever clause
ids are reported in order. -/
theorem C24.line_numbers (ops : List Lrat.Op) (h : Increasing ops) : ∃ lines,
    readText (Lrat.output false ops) = some lines ∧
    (lines.map Line.number).Pairwise (· ≤ ·) := by
  refine ⟨_, read_output false ops, ?_⟩
  have := (Lrat.A.Ok.ops false ops {} ⟨by simp [A.numbers], by simp [A.numbers]⟩ h (by simp)).close
  have h1 := this.1
  rw [A.numbers, close_opn] at h1
  simp only [Option.elim, List.append_nil] at h1
  rw [List.map_map]
  convert h1 using 2
  funext l
  cases l <;> rfl

namespace Demo

/-- A small checked proof: two clauses, a duplicate, a tautology, two derived clauses, deletions. -/
def lratOps : List Lrat.Op :=
  [.step (.addClause 0 [⟨0⟩, ⟨2⟩]), .step (.addClause 1 [⟨0⟩, ⟨3⟩]),
   .step (.duplicatedClause 2 0 [⟨0⟩, ⟨2⟩]), .step (.addClause 3 [⟨1⟩, ⟨601⟩]),
   .step (.tautologicalClause 4 [⟨4⟩, ⟨5⟩]),
   .step (.atClause 5 false [⟨0⟩] [0, 1]), .step (.deleteClause 0 [⟨0⟩, ⟨2⟩]), .flush,
   .step (.deleteAtClause 1 false [⟨0⟩, ⟨3⟩] [5]), .step (.deleteAtClause 3 true [⟨1⟩, ⟨601⟩] []),
   .step (.atClause 6 true [⟨601⟩] [5, 3])]

end Demo

-- A concrete text file and its meaning (test).
example : Lrat.output false Demo.lratOps =
    ascii "4 d 3 5 0\n6 1 0 1 2 0\n6 d 1 0\n6 d 2 0\n7 -301 0 6 4 0\n" := by decide +kernel

example : readText (Lrat.output false Demo.lratOps) = some
    [.del (some 3) [2, 4], .add 5 [1] [0, 1], .del (some 5) [0], .del (some 5) [1],
     .add 6 [-301] [5, 3]] := by decide +kernel

example : readBinary (Lrat.output true Demo.lratOps) = some
    [.del none [2, 4], .add 5 [1] [0, 1], .del none [0], .del none [1],
     .add 6 [-301] [5, 3]] := by decide +kernel

example : Increasing Demo.lratOps := by unfold Increasing; decide +kernel
example : ¬ (Lrat.Op.step (.atClause 6 true [⟨601⟩] [5, 3])).input := id

/-! ### C25 -/

/-- What a proof step means for a consumer of a DRAT file: `true` is an addition. -/
def dratEvents : ProofStep → List (Bool × List Int)
  | .atClause _ clause _ => [(true, clause.map Lit.toDimacs)]
  | .unitClauses units => units.map fun u => (true, [u.1.toDimacs])
  | .deleteClause clause _ => [(false, clause.map Lit.toDimacs)]
  | _ => []

/-- Steps which DRAT files cannot contain. -/
def dratUnsupported : ProofStep → Bool
  | .addClause .. | .assumptions .. | .failedAssumptions .. => true
  | _ => false

namespace Drat

theorem steps_events (s : ProofStep) (es : List (Bool × List Lit)) (h : steps s = some es) :
    es.map (fun e => (e.1, e.2.map Lit.toDimacs)) = dratEvents s := by
  cases s <;> simp only [steps, Option.some.injEq, reduceCtorEq] at h <;> subst h <;>
    simp [dratEvents]

theorem output_some (binary : Bool) : ∀ (ss : List ProofStep) (bs : Bytes),
    output binary ss = some bs → ∃ es : List (Bool × List Lit),
    bs = es.flatMap (if binary then emitBinary else emitText) ∧
    es.map (fun e => (e.1, e.2.map Lit.toDimacs)) = ss.flatMap dratEvents := by
  intro ss
  induction ss with
  | nil =>
    intro bs h
    cases h
    exact ⟨[], rfl, rfl⟩
  | cons s ss ih =>
    intro bs h
    simp only [output, Option.bind_eq_bind, Option.bind_eq_some_iff, writeStep,
      Option.map_eq_some_iff] at h
    obtain ⟨b1, ⟨es, h1, rfl⟩, b2, h2, h3⟩ := h
    obtain ⟨es', rfl, h5⟩ := ih b2 h2
    simp only [pure, Option.some.injEq] at h3
    refine ⟨es ++ es', by rw [← h3, List.flatMap_append], ?_⟩
    rw [List.map_append, steps_events s es h1, h5]
    rfl

/-- Words of a textual DRAT line before the final `0`. -/
def words (e : Bool × List Lit) : List Bytes := (if e.1 then [] else [[100]]) ++ litWords e.2

theorem emitText_eq (e : Bool × List Lit) : emitText e = sepd 32 (words e) ++ [48] ++ [10] := by
  rcases e with ⟨add, lits⟩
  cases add <;> simp [emitText, writeLiterals, words, sepd, litWords, flatMap_map']

theorem words_noSpace (e : Bool × List Lit) :
    ∀ w ∈ words e, (32 : UInt8) ∉ w ∧ (10 : UInt8) ∉ w := by
  intro w hw
  simp only [words, List.mem_append] at hw
  rcases hw with hw | hw
  · split at hw
    · simp at hw
    · simp only [List.mem_singleton] at hw; subst hw; decide
  · obtain ⟨l, _, rfl⟩ := List.mem_map.1 hw
    exact decInt_noSpace _

theorem dratLine_enc (e : Bool × List Lit) :
    dratLine (sepd 32 (words e) ++ [48]) = some (e.1, e.2.map Lit.toDimacs) := by
  unfold dratLine
  rw [split_sepd (fun w hw => (words_noSpace e w hw).1), split_none (by decide)]
  rcases e with ⟨add, lits⟩
  have h1 : untilZero (litWords lits ++ [[48]]) = some (litWords lits, []) :=
    untilZero_append (litWords_ne lits)
  cases add
  · simp [words, h1, mapM_litWords]
  · have hd : (litWords lits ++ [[48]]).head? ≠ some [100] := by
      cases lits with
      | nil => simp [litWords]
      | cons l ls =>
        simp only [litWords, List.map_cons, List.cons_append, List.head?_cons, ne_eq,
          Option.some.injEq]
        exact decInt_ne_d _
    simp only [words, if_true, List.nil_append, ne_eq, hd, not_false_eq_true, h1]
    simp [mapM_litWords]

theorem readDrat_emit (es : List (Bool × List Lit)) :
    readDrat (es.flatMap emitText) = some (es.map fun e => (e.1, e.2.map Lit.toDimacs)) := by
  have h : es.flatMap emitText = sepd 10 (es.map fun e => sepd 32 (words e) ++ [48]) := by
    simp only [sepd, flatMap_map']
    congr 1; funext e; exact emitText_eq e
  unfold readDrat
  rw [h, fileLines_sepd]
  · exact mapM_map_some es dratLine_enc
  · intro l hl
    obtain ⟨e, _, rfl⟩ := List.mem_map.1 hl
    simp only [List.mem_append, List.mem_singleton, not_or]
    exact ⟨not_mem_sepd (by decide) (fun w hw => (words_noSpace e w hw).2), by decide⟩

/-- Numbers of a binary DRAT line. -/
def list (e : Bool × List Lit) : List Nat :=
  (if e.1 then 97 else 100) :: e.2.map (fun l => l.code + 2)

theorem emitBinary_eq (e : Bool × List Lit) : emitBinary e = nums (list e) ++ [0] := by
  rcases e with ⟨add, lits⟩
  cases add <;> simp [emitBinary, writeBinaryLiterals, list, nums, flatMap_map', leb_tag]

theorem dratLines_cons (e : Bool × List Lit) (rest : List (List Nat)) :
    dratLines (list e :: rest) = (dratLines rest).map ((e.1, e.2.map Lit.toDimacs) :: ·) := by
  rcases e with ⟨add, lits⟩
  cases add <;>
  · simp only [list, dratLines, mapM_binLits, if_true, if_false, Bool.false_eq_true]
    cases dratLines rest <;> rfl

theorem readBinaryDrat_emit (es : List (Bool × List Lit)) :
    readBinaryDrat (es.flatMap emitBinary) =
      some (es.map fun e => (e.1, e.2.map Lit.toDimacs)) := by
  have h : es.flatMap emitBinary = (es.map list).flatMap (fun ns => nums ns ++ [0]) ++ [] := by
    rw [List.append_nil, flatMap_map']
    congr 1; funext e; exact emitBinary_eq e
  unfold readBinaryDrat
  have h2 : ∀ ns ∈ es.map list, 0 ∉ ns := by
    intro ns hns
    obtain ⟨e, _, rfl⟩ := List.mem_map.1 hns
    rcases e with ⟨add, lits⟩
    cases add <;> simp [list]
  rw [h, lebs_lists]
  simp only [lebs, Option.map, Option.bind_eq_bind, Option.bind, List.append_nil]
  have := split_sepd (r := []) h2
  simp only [List.append_nil] at this
  rw [this]
  clear this h2 h
  induction es with
  | nil => rfl
  | cons e es ih =>
    simp only [List.map_cons, List.cons_append, dratLines_cons, ih, Option.map]

end Drat

/-- **C25**: the bytes written in DRAT mode are read back to exactly the additions and deletions
performed, in order, in the textual format and in the binary format. -/
theorem C25.read_back (ss : List ProofStep) (binary : Bool) (bytes : Bytes)
    (h : Drat.output binary ss = some bytes) :
    (if binary then readBinaryDrat else readDrat) bytes = some (ss.flatMap dratEvents) := by
  obtain ⟨es, rfl, h2⟩ := Drat.output_some binary ss bytes h
  rw [← h2]
  cases binary
  · exact Drat.readDrat_emit es
  · exact Drat.readBinaryDrat_emit es

/-- Output is produced (no panic) exactly for proofs without added input clauses and assumptions,
for either format. -/
theorem C25.supported (ss : List ProofStep) (binary : Bool) :
    (Drat.output binary ss).isSome ↔ ∀ s ∈ ss, dratUnsupported s = false := by
  induction ss with
  | nil => simp [Drat.output]
  | cons s ss ih =>
    simp only [List.mem_cons, forall_eq_or_imp, ← ih, Drat.output, Option.bind_eq_bind]
    have hs : (Drat.writeStep binary s).isSome ↔ dratUnsupported s = false := by
      cases s <;> simp [Drat.writeStep, Drat.steps, dratUnsupported]
    rw [← hs]
    cases Drat.writeStep binary s <;> cases Drat.output binary ss <;> simp

/-- Different literals have different binary codes, and the code of a literal can be told apart
from the tags of the following lines at every place: lists end with the byte 0, which no literal
code starts with. -/
theorem C25.binary_literals (k l : Lit) (r r' : Bytes)
    (h : leb (k.code + 2) ++ r = leb (l.code + 2) ++ r') : k = l ∧ r = r' := by
  have inj : ∀ m n (r r' : Bytes), leb m ++ r = leb n ++ r' → m = n ∧ r = r' := by
    intro m
    induction m using Nat.strongRecOn with
    | _ m ih =>
      intro n r r' h
      rw [leb, leb.eq_1 n] at h
      split at h <;> split at h <;> rename_i hm hn
      · simp only [List.cons_append, List.nil_append, List.cons.injEq] at h
        have := congrArg UInt8.toNat h.1
        simp only [UInt8.toNat_ofNat'] at this
        exact ⟨by omega, h.2⟩
      · simp only [List.cons_append, List.nil_append, List.cons.injEq] at h
        have := congrArg UInt8.toNat h.1
        simp only [UInt8.toNat_ofNat'] at this
        omega
      · simp only [List.cons_append, List.nil_append, List.cons.injEq] at h
        have := congrArg UInt8.toNat h.1
        simp only [UInt8.toNat_ofNat'] at this
        omega
      · simp only [List.cons_append, List.cons.injEq] at h
        have h1 := congrArg UInt8.toNat h.1
        simp only [UInt8.toNat_ofNat'] at h1
        obtain ⟨h2, h3⟩ := ih (m / 128) (by omega) _ _ _ h.2
        exact ⟨by omega, h3⟩
  obtain ⟨h1, h2⟩ := inj _ _ _ _ h
  refine ⟨?_, h2⟩
  cases k; cases l
  simp only at h1
  congr 1; omega

example : Drat.output false [.atClause true [⟨0⟩, ⟨601⟩] [7], .changeHashBits 6,
    .unitClauses [(⟨1⟩, 3), (⟨2⟩, 4)], .deleteClause [⟨0⟩, ⟨601⟩] .redundant, .end_] =
    some (ascii "1 -301 0\n-1 0\n2 0\nd 1 -301 0\n") := by decide +kernel

example : Drat.output true [.atClause true [⟨0⟩, ⟨601⟩] [7],
    .deleteClause [⟨0⟩, ⟨601⟩] .redundant] =
    some [97, 2, 0xdb, 4, 0, 100, 2, 0xdb, 4, 0] := by decide +kernel

end Varisat
