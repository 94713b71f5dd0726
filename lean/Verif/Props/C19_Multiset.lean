import Verif.Proof.CheckerCount
import Verif.Proof.CheckerComplete
import Verif.Props.C13_CheckerSound
import Verif.Props.C18_ClauseIdentity
/-!
# C19, C22, C23: the clause database of the checker
-/
namespace Varisat
open Checker
open Demo (accepted final final_ok)

/-! ## C19 -/

/-- The two lists contain the same literals. -/
def sameLits (c k : List Lit) : Bool := c.all (fun l => decide (l ∈ k)) && k.all (fun l => decide (l ∈ c))

/-- How often the clause with the literals `k` is held: sum of the reference counts (redundant or
irredundant) of all stored clauses with these literals. -/
def held (s : St) (red : Bool) (k : List Lit) : Nat :=
  ((s.clauses.flatMap (·.2)).map fun c =>
    if sameLits (c.lits.slice s.buffer) k then (if red then c.red else c.irred) else 0).sum

/-- What a call does to the number of (redundant or irredundant) copies of the clause `k`. -/
def copies (red : Bool) (k : List Lit) : Op → Int
  | .add c | .step (.addClause c) => if sameLits c k ∧ red = false then 1 else 0
  | .step (.atClause r c _) => if sameLits c k ∧ red = r then 1 else 0
  | .step (.deleteClause c .redundant) => if sameLits c k ∧ red = true then -1 else 0
  | .step (.deleteClause c _) => if sameLits c k ∧ red = false then -1 else 0
  | _ => 0

theorem sameLits_iff {c k : List Lit} : sameLits c k = true ↔ ∀ l, l ∈ c ↔ l ∈ k := by
  simp only [sameLits, Bool.and_eq_true, List.all_eq_true, decide_eq_true_eq]
  exact ⟨fun h l => ⟨h.1 l, h.2 l⟩, fun h => ⟨fun l => (h l).1, fun l => (h l).2⟩⟩

theorem sameLits_canonical {c k : List Lit} : sameLits c k = true ↔ (copyCanonical c).1 = (copyCanonical k).1 := by
  rw [sameLits_iff, C18.canonical_eq_iff]

theorem sameLits_sorted {c k : List Lit} (hc : SSorted c) : sameLits c k = true ↔ c = (copyCanonical k).1 := by
  rw [sameLits_iff]
  constructor
  · intro h
    exact ssorted_ext hc (canonical_ssorted k) fun l => by rw [h, mem_canonical]
  · intro h l; rw [h, mem_canonical]

theorem held_eq {s : St} (hw : WFdb s.buffer s.hashBits s.names s.clauses) (red : Bool) (k : List Lit) :
    (held s red k : Int) = wt red (copyCanonical k).1 (ents s.buffer s.clauses) := by
  have hent := hw.ent
  unfold held wt ents flat at *
  generalize s.clauses.flatMap (·.2) = cs at hent
  induction cs with
  | nil => simp
  | cons c cs ih =>
    simp only [List.map_cons, List.sum_cons] at hent ⊢
    rw [Int.natCast_add, ih fun e he => hent e (List.mem_cons_of_mem _ he)]
    have hs := (hent _ (List.mem_cons_self ..)).1.sorted
    congr 1
    unfold wt1 entryOf at *
    simp only at hs ⊢
    by_cases h : sameLits (c.lits.slice s.buffer) k = true
    · rw [if_pos h, if_pos ((sameLits_sorted hs).1 h)]; cases red <;> simp
    · rw [if_neg h, if_neg (fun e => h ((sameLits_sorted hs).2 e))]; simp

theorem copies_eq (red : Bool) (k : List Lit) (op : Op) :
    copies red k op = delta red (copyCanonical k).1 false op := by
  unfold copies delta
  simp only [sameLits_canonical]
  cases op with
  | add c => simp
  | step st =>
    cases st with
    | deleteClause c p => cases p <;> simp
    | _ => simp

theorem length_two {k : List Lit} {a b : Lit} (ha : a ∈ k) (hb : b ∈ k) (h : a ≠ b) :
    2 ≤ (copyCanonical k).1.length := by
  have ha := mem_canonical.2 ha
  have hb := mem_canonical.2 hb
  match (copyCanonical k).1, ha, hb with
  | [x], ha, hb => simp only [List.mem_singleton] at ha hb; exact absurd (ha.trans hb.symm) h
  | _ :: _ :: _, _, _ => simp

/-- **C19**: for every clause of at least two literals, after any accepted history the checker holds
exactly as many irredundant and redundant copies as were added minus deleted, as long as no contradiction
is known (afterwards added clauses are ignored, see `C19.step`). -/
theorem C19.multiset (env : Env) (ops : List Op) (s : St) (h : execs env ops {} = .ok () s)
    (hu : s.unsat = false) (red : Bool) (k : List Lit) (hk : ∃ a ∈ k, ∃ b ∈ k, a ≠ b)
    (hkt : ∀ l ∈ k, l.neg ∉ k) :
    (held s red k : Int) = (ops.map (copies red k)).sum := by
  obtain ⟨a, ha, b, hb, hab⟩ := hk
  have hr := ran_execs (Ran.init (env := env)) h
  rw [held_eq hr.core.pre.wf, wt_execs (length_two ha hb hab) (canonical_ssorted k)
    (fun l hl hl' => hkt l (mem_canonical.1 hl) (mem_canonical.1 hl')) Ran.init h hu]
  rw [show copies red k = delta red (copyCanonical k).1 false from funext (copies_eq red k)]
  simp [wt, ents, flat]

/-- Two copies of a clause, one of them derived, one deleted. -/
def Demo.counting : List Op := [.add (Demo.cl [1, 2]), .add (Demo.cl [2, 1, 2]),
  .step (.atClause true (Demo.cl [2, 1]) [Demo.hash [1, 2]]),
  .add (Demo.cl [-1]), .add (Demo.cl [2, 3]),
  .step (.atClause false (Demo.cl [2]) [Demo.hash [1, 2]]),
  .step (.deleteClause (Demo.cl [1, 2]) .satisfied)]

example : accepted (execs Demo.env Demo.counting {}) = true ∧
    (final (execs Demo.env Demo.counting {})).unsat = false ∧
    held (final (execs Demo.env Demo.counting {})) false (Demo.cl [2, 1]) = 1 ∧
    held (final (execs Demo.env Demo.counting {})) true (Demo.cl [2, 1]) = 1 := by decide +kernel

/-- **C19**, one call at a time and also after a contradiction is known, when `add_clause` has no effect;
rejected calls may have occurred before. -/
theorem C19.step (env : Env) (F : List (List Lit)) (s s' : St) (hr : Ran env F s) (op : Op)
    (h : op.exec env s = .ok () s') (red : Bool) (k : List Lit) (hk : ∃ a ∈ k, ∃ b ∈ k, a ≠ b)
    (hkt : ∀ l ∈ k, l.neg ∉ k) :
    (held s' red k : Int) = held s red k +
      (if s.unsat = true ∧ op.added ≠ [] then 0 else copies red k op) := by
  obtain ⟨a, ha, b, hb, hab⟩ := hk
  have hw := OpEff.wt hr.core.pre (op_ok hr.core.pre h) red (length_two ha hb hab) (canonical_ssorted k)
    (fun l hl hl' => hkt l (mem_canonical.1 hl) (mem_canonical.1 hl'))
  rw [held_eq (hr.accept op h).core.pre.wf, held_eq hr.core.pre.wf, hw]
  congr 1
  rw [copies_eq]
  cases hx : s.unsat with
  | false => simp
  | true =>
    cases op with
    | add c => simp [delta, Op.added]
    | step st => cases st <;> simp [delta, Op.added]

/-- **C19**: a deletion of a clause of which no copy of that kind is held is rejected, also after
earlier rejected steps, whatever other clauses share its hash. -/
theorem C19.absent_rejected (env : Env) (F : List (List Lit)) (s : St) (hr : Ran env F s) (c : List Lit)
    (proof : DeleteProof) (h0 : held s (decide (proof = .redundant)) c = 0) (s' : St) :
    Op.exec env (.step (.deleteClause c proof)) s ≠ .ok () s' := by
  intro h
  have he : DelStepEff c proof _ s' := op_ok hr.core.pre h
  obtain ⟨id, r, s1, o, hd, -⟩ := he.run
  obtain ⟨e, hm, h1, h2⟩ := hd.pos
  have hle := wt_mem (red := decide (proof = .redundant)) hm h1
  have heq := held_eq hr.core.pre.wf (decide (proof = .redundant)) c
  rw [h0] at heq
  simp only at hle hm
  omega

/-- The end of the history above is a reachable state. -/
theorem Demo.ran_counting : Ran Demo.env (added Demo.counting) (final (execs Demo.env Demo.counting {})) := by
  have := ran_execs (Ran.init (env := Demo.env)) (ops := Demo.counting) (final_ok (by decide +kernel))
  rwa [List.nil_append] at this

example : held (final (execs Demo.env Demo.counting {})) true (Demo.cl [2, 3]) = 0 ∧
    held (final (execs Demo.env Demo.counting {})) false (Demo.cl [2, 3]) = 1 ∧
    accepted (Op.exec Demo.env (.step (.deleteClause (Demo.cl [2, 3]) .satisfied))
      (final (execs Demo.env Demo.counting {}))) = true := by decide +kernel

theorem held_pos {s : St} (hw : WFdb s.buffer s.hashBits s.names s.clauses) {red : Bool} {k : List Lit}
    (h : 0 < held s red k) :
    ∃ e ∈ ents s.buffer s.clauses, e.lits = (copyCanonical k).1 ∧ 0 < (if red then e.red else e.irred) := by
  have he := held_eq hw red k
  by_contra hn
  push Not at hn
  have : wt red (copyCanonical k).1 (ents s.buffer s.clauses) = 0 := by
    clear he
    unfold wt
    generalize ents s.buffer s.clauses = es at hn
    induction es with
    | nil => rfl
    | cons e es ih =>
      rw [List.map_cons, List.sum_cons, ih fun e he => hn e (List.mem_cons_of_mem _ he)]
      unfold wt1
      split
      · rename_i hl
        have := hn e (List.mem_cons_self ..) hl
        cases red <;> simp_all
      · rfl
  omega

theorem ents_unique {buffer bits names m} (hw : WFdb buffer bits names m) {e e' : Entry}
    (h : e ∈ ents buffer m) (h' : e' ∈ ents buffer m) (hl : e.lits = e'.lits) : e = e' := by
  have hn := hw.nodup
  exact List.inj_on_of_nodup_map hn h h' hl

/-- **C19**: conversely a redundant copy that is held can be deleted. -/
theorem C19.present_accepted (env : Env) (ha : Accepting env) (F : List (List Lit)) (s : St) (hr : Ran env F s)
    (c : List Lit) (h0 : 0 < held s true c) : ∃ s', Op.exec env (.step (.deleteClause c .redundant)) s = .ok () s' := by
  have hw := hr.core.pre.wf
  obtain ⟨e, hm, hl, hpos⟩ := held_pos hw h0
  have hok := (hw.ent e hm).1
  rw [hl] at hok
  have htf : (copyCanonical c).2 = false := by
    cases h : (copyCanonical c).2 with
    | false => rfl
    | true =>
      obtain ⟨l, h1, h2⟩ := (canonical_taut c).1 h
      exact absurd (mem_canonical.2 h2) (hok.notaut l (mem_canonical.2 h1))
  have key : wp (checkDeleteClause env c .redundant) (fun _ _ => True) (fun _ _ => False)
      { s with step := s.step + 1 } := by
    unfold checkDeleteClause
    simp only [htf, Bool.false_eq_true, if_false, decide_true]
    rw [wp_bind]
    unfold justifyDelete
    rw [wp_bind, wp_get]
    simp only
    rw [wp_pure, wp_bind, wp_modify, wp_bind]
    have hspec := deleteClause_spec env (s := { s with
      step := s.step + 1
      prevId := none
      prevLits := [] }) hw (copyCanonical c).1 true
    rcases hspec with ⟨h, -⟩ | ⟨hlen, ⟨m, -, h, -⟩ | ⟨m, -, ⟨e', h1, h2, h3⟩, -⟩ | ⟨id, dr, m, b, g, cc, h, h1, h2, h3⟩⟩
    · have := hok.len; omega
    · exact absurd hl (h e hm)
    · have := ents_unique hw h1 hm (h2.trans hl.symm)
      subst this
      simp only [if_true] at h3 hpos
      omega
    · unfold wp; rw [h]
      simp only [if_true]
      cases hd : dr with
      | removed =>
        obtain ⟨s', h'⟩ := emit_ok (env := env) (st := .deleteClause id (copyCanonical c).1) (s := { s with
          step := s.step + 1
          prevId := none
          prevLits := []
          clauses := m
          buffer := b
          garbage := g
          clauseCount := cc }) ha (fun _ => by simp [transcriptStep])
        simp only
        rw [h']
        trivial
      | unchanged => trivial
      | newlyRedundant =>
        exfalso
        rw [hd] at h2
        simp only at h2
        generalize hx : DeleteResult.newlyRedundant = x at h2
        cases h2 with
        | gone => simp at hx
        | kept => simp at hx
  unfold wp at key
  show ∃ s', checkDeleteClause env c .redundant { s with step := s.step + 1 } = .ok () s'
  cases hx : checkDeleteClause env c .redundant { s with step := s.step + 1 } with
  | ok a s' => exact ⟨s', rfl⟩
  | error e s' => rw [hx] at key; exact key.elim

example : 0 < held (final (execs Demo.env Demo.counting {})) true (Demo.cl [1, 2]) ∧
    Accepting Demo.env := ⟨by decide +kernel, fun _ _ => rfl, fun _ _ => rfl⟩

/-! ## C22 -/

/-- A unit clause with this literal is stored. -/
def UnitKnown (s : St) (l : Lit) : Prop := ∃ id, s.units l.var = some ⟨id, !l.isNeg⟩

theorem unitKnown_iff {s : St} {l : Lit} : UnitKnown s l ↔ IsTrue s.units l := by
  constructor
  · rintro ⟨id, h⟩; exact ⟨_, h, rfl⟩
  · rintro ⟨⟨id, v⟩, h, hv⟩; exact ⟨id, by rw [h, ← hv]⟩

/-- **C22**: an asymmetric tautology step is accepted if its hashes (possibly followed by others) are
those of stored clauses which, with the literals of the clause false and the stored unit clauses true,
are unit one after the other until the last is false. Whatever other clauses have the same hashes. -/
theorem C22.hints_suffice (env : Env) (ha : Accepting env) (F : List (List Lit)) (s : St) (hr : Ran env F s)
    (red : Bool) (c : List Lit) (ht : ∀ l ∈ c, l.neg ∉ c) (cls : List (List Lit)) (extra : List Nat)
    (hst : ∀ d ∈ cls, ∃ b ∈ s.clauses, ∃ k ∈ b.2, k.lits.slice s.buffer = d)
    (hch : UnitChain Lit.neg (fun l => l.neg ∈ c ∨ UnitKnown s l) cls) :
    ∃ s', Op.exec env (.step (.atClause red c (cls.map (lookupHash s) ++ extra))) s = .ok () s' := by
  have hp := hr.core.pre
  have key := at_complete env ha (s := { s with step := s.step + 1 }) ⟨hp.wf, hp.glob, hp.trail⟩ red c ht
    (cls.map (lookupHash s) ++ extra) (Or.inr ⟨cls, extra, rfl, hst, by simpa only [unitKnown_iff] using hch⟩)
  unfold wp at key
  show ∃ s', checkAtClause env red c _ { s with step := s.step + 1 } = .ok () s'
  cases hx : checkAtClause env red c (cls.map (lookupHash s) ++ extra) { s with step := s.step + 1 } with
  | ok a s' => exact ⟨s', rfl⟩
  | error e s' => rw [hx] at key; exact key.elim

/-- **C22**: as is a clause with a literal that is already known, with any hints. -/
theorem C22.known_literal (env : Env) (ha : Accepting env) (F : List (List Lit)) (s : St) (hr : Ran env F s)
    (red : Bool) (c : List Lit) (ht : ∀ l ∈ c, l.neg ∉ c) (hashes : List Nat) (hk : ∃ l ∈ c, UnitKnown s l) :
    ∃ s', Op.exec env (.step (.atClause red c hashes)) s = .ok () s' := by
  have hp := hr.core.pre
  have key := at_complete env ha (s := { s with step := s.step + 1 }) ⟨hp.wf, hp.glob, hp.trail⟩ red c ht
    hashes (Or.inl (by simpa only [unitKnown_iff] using hk))
  unfold wp at key
  show ∃ s', checkAtClause env red c _ { s with step := s.step + 1 } = .ok () s'
  cases hx : checkAtClause env red c hashes { s with step := s.step + 1 } with
  | ok a s' => exact ⟨s', rfl⟩
  | error e s' => rw [hx] at key; exact key.elim

/-- The square, without unit clauses: unit 1 follows from two of its clauses. -/
theorem Demo.ran_square : Ran Demo.env (added Demo.square) (final (execs Demo.env Demo.square {})) := by
  have := ran_execs (Ran.init (env := Demo.env)) (ops := Demo.square) (final_ok (by decide +kernel))
  rwa [List.nil_append] at this

example : UnitChain Lit.neg (fun l => l.neg ∈ Demo.cl [1] ∨ UnitKnown (final (execs Demo.env Demo.square {})) l)
      [Demo.cl [1, 2], Demo.cl [1, -2]] ∧
    ∀ d ∈ [Demo.cl [1, 2], Demo.cl [1, -2]], d ∈ (final (execs Demo.env Demo.square {})).clauses.flatMap fun b =>
      b.2.map fun k => k.lits.slice (final (execs Demo.env Demo.square {})).buffer := by
  refine ⟨⟨Demo.lit 2, by decide, ?_, ?_⟩, by decide +kernel⟩
  · intro m hm
    have : m = Demo.lit 1 ∨ m = Demo.lit 2 := by simpa [Demo.cl] using hm
    rcases this with rfl | rfl
    · exact Or.inr (Or.inl (by decide))
    · exact Or.inl rfl
  · intro m hm
    have : m = Demo.lit 1 ∨ m = Demo.lit (-2) := by simpa [Demo.cl] using hm
    rcases this with rfl | rfl
    · exact Or.inr (Or.inl (by decide))
    · exact Or.inl (by decide)

/-- **C22** for failed assumptions: the core are current assumptions, and propagating them over the hints
ends in a conflict. (With a transcript, which panics on assumptions over hidden variables, all variables
must be known to the user.) -/
theorem C22.failed_assumptions (env : Env) (ha : Accepting env) (ops : List Op)
    (s : St) (h : execs env ops {} = .ok () s) (core : List Lit)
    (hn : env.hasTranscript = true → ∀ l ∈ core, (userFromProofVar s l.var).isSome = true)
    (hsub : ∀ l ∈ core, l ∈ assumedBy [] ops)
    (cls : List (List Lit)) (extra : List Nat)
    (hst : ∀ d ∈ cls, ∃ b ∈ s.clauses, ∃ k ∈ b.2, k.lits.slice s.buffer = d)
    (hch : UnitChain Lit.neg (fun l => l ∈ core ∨ UnitKnown s l) cls) :
    ∃ s', Op.exec env (.step (.failedAssumptions core (cls.map (lookupHash s) ++ extra))) s = .ok () s' := by
  have hr := ran_execs (Ran.init (env := env)) h
  have hp := hr.core.pre
  have hasm := asm_execs (A := []) Core.init (by decide) h
  have key := failed_complete env ha (s := { s with step := s.step + 1 }) ⟨hp.wf, hp.glob, hp.trail⟩
    (by rw [hasm]; exact canonical_ssorted _) core hn (fun l hl => by rw [hasm]; exact mem_canonical.2 (hsub l hl))
    (cls.map (lookupHash s) ++ extra) (Or.inr ⟨cls, extra, rfl, hst, by simpa only [unitKnown_iff] using hch⟩)
  unfold wp at key
  show ∃ s', checkFailedAssumptions env core _ { s with step := s.step + 1 } = .ok () s'
  cases hx : checkFailedAssumptions env core (cls.map (lookupHash s) ++ extra) { s with step := s.step + 1 } with
  | ok a s' => exact ⟨s', rfl⟩
  | error e s' => rw [hx] at key; exact key.elim

/-! ## C23 -/

/-- A stored clause as seen from outside: id, counts and literals. -/
def contents (s : St) : List (Nat × Nat × Nat × List Lit) :=
  (s.clauses.flatMap (·.2)).map fun c => (c.id, c.irred, c.red, c.lits.slice s.buffer)

/-- Lookup of a clause by its literals, as in `store_clause` and `delete_clause`: the clauses in the
bucket of its hash that have exactly these literals. -/
def lookup (s : St) (k : List Lit) : List (Nat × Nat × Nat) :=
  ((bucket s.clauses (hashOf s.hashBits s.names k)).filter fun c => c.lits.slice s.buffer = k).map
    fun c => (c.id, c.irred, c.red)

theorem contents_eq (s : St) : contents s = (ents s.buffer s.clauses).map fun e => (e.id, e.irred, e.red, e.lits) := by
  unfold contents ents flat
  rw [List.map_map]
  rfl

/-- Lookup finds exactly the stored clause with these literals. -/
theorem lookup_eq {s : St} (hw : WFdb s.buffer s.hashBits s.names s.clauses) (k : List Lit) (x : Nat × Nat × Nat) :
    x ∈ lookup s k ↔ (x.1, x.2.1, x.2.2, k) ∈ contents s := by
  unfold lookup contents
  simp only [List.mem_map, List.mem_filter, decide_eq_true_eq, Prod.mk.injEq]
  constructor
  · rintro ⟨c, ⟨h1, h2⟩, rfl⟩
    obtain ⟨b, hb, -, hc⟩ := mem_bucket h1
    exact ⟨c, mem_flat.2 ⟨b, hb, hc⟩, rfl, rfl, rfl, h2⟩
  · rintro ⟨c, hc, h1, h2, h3, h4⟩
    refine ⟨c, ⟨?_, h4⟩, by rw [h1, h2, h3]⟩
    have := hw.find hc
    rwa [h4] at this

theorem lookup_length {s : St} (hw : WFdb s.buffer s.hashBits s.names s.clauses) (k : List Lit) :
    (lookup s k).length ≤ 1 := by
  unfold lookup
  rw [List.length_map]
  generalize hashOf s.hashBits s.names k = h
  have hsub : (bucket s.clauses h).Sublist (flat s.clauses) := by
    generalize s.clauses = m
    induction m with
    | nil => simp [bucket]
    | cons b m ih =>
      unfold bucket flat
      simp only [List.flatMap_cons]
      split
      · exact List.sublist_append_left ..
      · exact ih.trans (List.sublist_append_right ..)
  have hnd : ((flat s.clauses).map fun c => c.lits.slice s.buffer).Nodup := by
    have := hw.nodup
    unfold ents at this
    rwa [List.map_map] at this
  have hnd2 := (List.filter_sublist (p := fun c : Clause => decide (c.lits.slice s.buffer = k)).trans hsub).map
    (fun c : Clause => c.lits.slice s.buffer) |>.nodup hnd
  have hall : ∀ c ∈ (bucket s.clauses h).filter fun c : Clause => decide (c.lits.slice s.buffer = k),
      c.lits.slice s.buffer = k := by
    intro c hc; simpa using (List.mem_filter.1 hc).2
  match (bucket s.clauses h).filter fun c : Clause => decide (c.lits.slice s.buffer = k), hnd2, hall with
  | [], _, _ => simp
  | [_], _, _ => simp
  | a :: b :: r, hnd2, hall =>
    exfalso
    have h1 := hall a (by simp)
    have h2 := hall b (by simp)
    simp only [List.map_cons, List.nodup_cons, List.mem_cons] at hnd2
    exact hnd2.1 (Or.inl (h1.trans h2.symm))

theorem list_ext_of_le_one {α : Type} {a b : List α} (ha : a.length ≤ 1) (hb : b.length ≤ 1)
    (h : ∀ x, x ∈ a ↔ x ∈ b) : a = b := by
  match a, b, ha, hb with
  | [], [], _, _ => rfl
  | [], [y], _, _ => simpa using h y
  | [x], [], _, _ => simpa using h x
  | [x], [y], _, _ => simpa using (h x).1 (by simp)
  | _ :: _ :: _, _, ha, _ => simp at ha
  | _, _ :: _ :: _, _, hb => simp at hb

theorem contents_perm {s s' : St} (h : (ents s'.buffer s'.clauses).Perm (ents s.buffer s.clauses)) :
    (contents s').Perm (contents s) := by
  rw [contents_eq, contents_eq]
  exact h.map _

theorem lookup_perm {s s' : St} (hw : WFdb s.buffer s.hashBits s.names s.clauses)
    (hw' : WFdb s'.buffer s'.hashBits s'.names s'.clauses)
    (h : (ents s'.buffer s'.clauses).Perm (ents s.buffer s.clauses)) (k : List Lit) :
    lookup s' k = lookup s k :=
  list_ext_of_le_one (lookup_length hw' k) (lookup_length hw k) fun x => by
    rw [lookup_eq hw', lookup_eq hw, (contents_perm h).mem_iff]

/-- **C23**: in every reachable state, compacting the literal buffer keeps the stored clauses with ids,
counts and literals, and every lookup by literals; nothing but clauses, buffer and garbage count changes. -/
theorem C23.collect_garbage (env : Env) (F : List (List Lit)) (s : St) (hr : Ran env F s) :
    (contents (collectGarbage env s)).Perm (contents s) ∧
    (∀ k, lookup (collectGarbage env s) k = lookup s k) ∧
    ∃ m b g, collectGarbage env s = { s with
      clauses := m
      buffer := b
      garbage := g } := by
  have hw := hr.core.pre.wf
  obtain ⟨m, b, g, h1, h2, h3⟩ := collectGarbage_spec env hw
  rw [h1]
  exact ⟨contents_perm h3, lookup_perm hw h2 h3, m, b, g, rfl⟩

/-- **C23**: the same for rehashing with other hash bits, and whatever solver names are pending. -/
theorem C23.rehash (env : Env) (F : List (List Lit)) (s : St) (hr : Ran env F s) (bits : Nat) :
    (contents (Checker.rehash env { s with hashBits := bits })).Perm (contents s) ∧
    (∀ k, lookup (Checker.rehash env { s with hashBits := bits }) k = lookup s k) ∧
    ∃ m names, Checker.rehash env { s with hashBits := bits } = { s with
      hashBits := bits
      clauses := m
      names := names
      buffered := []
      rename := false } := by
  have hw := hr.core.pre.wf
  obtain ⟨m, h1, h2, h3⟩ := rehash_spec env (s := { s with hashBits := bits }) hw
  rw [h1]
  exact ⟨contents_perm (s := s) h3, lookup_perm (s := s) hw h2 h3, m, _, rfl⟩

/-- **C23**: so the proof steps that only rename variables for hashing or change the number of hash bits
do not change the stored clauses or lookups. -/
theorem C23.steps (env : Env) (F : List (List Lit)) (s s' : St) (hr : Ran env F s) (st : ProofStep)
    (hst : (∃ b, st = .changeHashBits b) ∨ ∃ g n, st = .solverVarName g n)
    (h : Op.exec env (.step st) s = .ok () s') :
    (contents s').Perm (contents s) ∧ (∀ k, lookup s' k = lookup s k) ∧
    s'.units = s.units ∧ s'.unsat = s.unsat ∧ s'.nextId = s.nextId := by
  have hq : ∃ o, Quiet { s with step := s.step + 1 } o s' := by
    have he : StepEff env st { s with step := s.step + 1 } s' := op_ok hr.core.pre h
    rcases hst with ⟨b, rfl⟩ | ⟨g, n, rfl⟩ <;> exact ⟨_, he.choose_spec.1⟩
  obtain ⟨o, hq⟩ := hq
  exact ⟨contents_perm hq.perm, lookup_perm hr.core.pre.wf hq.wf hq.perm, hq.units, hq.unsat, hq.nextId⟩

/-- Long clauses, one of them deleted, so that compaction moves the other; then a rename of variable 1. -/
def Demo.moving : List Op := [.add (Demo.cl [1, 2, 3, 4]), .add (Demo.cl [-1, 2, 3, 4, 5]), .add (Demo.cl [1, 2]),
  .add (Demo.cl [3]), .step (.solverVarName 0 (some 7))]

theorem Demo.ran_moving : Ran Demo.env (added Demo.moving) (final (execs Demo.env Demo.moving {})) := by
  have := ran_execs (Ran.init (env := Demo.env)) (ops := Demo.moving) (final_ok (by decide +kernel))
  rwa [List.nil_append] at this

example : (final (execs Demo.env Demo.moving {})).buffer.length = 9 ∧
    ((final (execs Demo.env (Demo.moving ++ [.step (.deleteClause (Demo.cl [1, 2, 3, 4]) .satisfied),
      .step (.deleteClause (Demo.cl [-1, 2, 3, 4, 5]) .satisfied)]) {})).buffer.length = 0) ∧
    lookup (Checker.rehash Demo.env { final (execs Demo.env Demo.moving {}) with hashBits := 1 })
      (Demo.cl [1, 2]) = [(2, 1, 0)] := by decide +kernel

end Varisat
