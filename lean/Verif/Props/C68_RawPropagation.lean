import Verif.Proof.Solver.PropImage
import Verif.Proof.Solver.SampleSearch
/-!
# C68 Propagation stays inside its arrays

`Model/Solver/PropRaw` has the raw pointers of `propagate_long`. An access outside of the arrays is the error `ub`.
-/
namespace Varisat.Solver
open Raw
variable {α : Type} [LinearOrder α]

/-- Every state of a search can be propagated in memory: nothing is accessed outside of the arrays, no check fails, and the
result is that of `propagate`. Only literals of clauses that are not deleted are changed in the buffer. -/
theorem C68.exact {s : St α} (h : Search s .ready) {w : Wl} (hw : s.db.enableWatchlists s.w = some w) {m : Mem}
    (hm : Image s w m) (hn : s.varCount ≤ 2 ^ 31) :
    ∃ s' o m', s.propagate = .ok (s', o) ∧
      m.propLoop (byCode s.varCount s.bins.byLit) (s.varCount + 1) = .ok (m', o) ∧ Image s' s'.w m' ∧
      m'.words.length = m.words.length ∧ ∀ i, ¬ InLits s i → m'.words[i]? = m.words[i]? := by
  obtain ⟨F, A, ids, h1, h2, _⟩ := h.inv
  obtain ⟨w', e1, _, e3⟩ := Db.enableWatchlists_ok (bin := s.bins.byLit) h1.core.dbi (w := s.w)
    (fun c hc => ⟨h1.core.c.len c hc, h1.core.c.nodup c hc⟩) h1.core.wok
  rw [hw] at e1; cases e1
  obtain ⟨i1, i2⟩ := hm.of h1 e3 hn
  obtain ⟨s', o, p1, p2, _, p4, p5, _⟩ := h1.propagate h2
  have hp := p1
  unfold St.propagate at hp
  rw [hw] at hp
  simp only [bind, Except.bind, pure, Except.pure] at hp
  rcases Raw.propLoop_ok (s.varCount + 1) m _ i1 i2 with ⟨_, k⟩ | ⟨_, k⟩ | ⟨m', t, o', k1, k2, k3, k4⟩
  · rw [k trivial] at hp; cases hp
  · rw [k] at hp; cases hp
  · rw [k2] at hp
    simp only [Except.ok.injEq, Prod.mk.injEq] at hp
    obtain ⟨rfl, rfl⟩ := hp
    have hl : ∀ i, ¬ InLits s i → m'.words[i]? = m.words[i]? := by
      intro i hi
      refine k4.st.frame i (fun c hc => ?_)
      have hlen : (t.lits c).length = (s.db.lits c).length := (p5 c).length_eq
      rw [hlen]
      by_contra hcon
      exact hi ⟨c, hc, by omega, by omega⟩
    refine ⟨_, o', m', p1, k1, ⟨?_, k4.p, k3.trans hm.vars, ?_⟩, ?_, hl⟩
    · intro c hc
      have hc : s.db.Live c := hc
      refine ⟨_, some_clause (by simpa using k4.st.inside c hc) (by simpa using k4.st.head c hc) ?_⟩
      intro j hj
      simp only [List.length_map] at hj
      have hk := k4.st.word c hc j _ (List.getElem?_eq_getElem hj)
      cases hx : m'.words[c + 3 + j]? with
      | none => rw [hx] at hk; cases hk
      | some x =>
        rw [hx] at hk
        simp only [Option.map_some, Option.some.injEq] at hk
        rw [List.getElem?_map, List.getElem?_eq_getElem hj, ← hk]
        simp [ofLit, toLit]
    · have hwl := k4.wlim trivial
      apply List.ext_getElem?
      intro i
      by_cases hi : i < 2 * s.varCount
      · have := k4.other ⟨i⟩ (by rw [hwl, k3, hm.vars]; exact hi)
        rw [List.getD_eq_getElem?_getD, List.getElem?_eq_getElem (by rw [hwl, k3, hm.vars]; exact hi)] at this
        rw [List.getElem?_eq_getElem (by rw [hwl, k3, hm.vars]; exact hi)]
        simp only [Option.getD_some] at this
        rw [this]
        simp [byCode, St.varCount] at hi ⊢
        exact ⟨i, by simp [hi], rfl⟩
      · rw [List.getElem?_eq_none (by rw [hwl, k3, hm.vars]; omega), List.getElem?_eq_none (by rw [byCode_length]; exact Nat.not_lt.1 hi)]
    · have h1 : ∀ i, ¬ InLits s i → (i < m'.words.length ↔ i < m.words.length) := by
        intro i hi
        have : m'.words[i]? = none ↔ m.words[i]? = none := by rw [hl i hi]
        simp only [List.getElem?_eq_none_iff] at this
        omega
      have hin : ∀ i, InLits s i → i < m'.words.length ∧ i < m.words.length := by
        rintro i ⟨c, hc, a, b⟩
        have q1 := k4.st.inside c hc
        have q2 := i1.st.inside c hc
        have hlen : (t.lits c).length = (s.db.lits c).length := (p5 c).length_eq
        simp only at q2
        omega
      rcases Nat.lt_trichotomy m'.words.length m.words.length with q | q | q
      · by_cases hi : InLits s m'.words.length
        · have := (hin _ hi).1; omega
        · have := (h1 _ hi).2 q; omega
      · exact q
      · by_cases hi : InLits s m.words.length
        · have := (hin _ hi).2; omega
        · have := (h1 _ hi).1 q; omega

/-- There is such a memory for every state of a search. -/
theorem C68.image {s : St α} (h : Search s .ready) (hn : s.varCount ≤ 2 ^ 31) :
    ∃ w m, s.db.enableWatchlists s.w = some w ∧ Image s w m := by
  obtain ⟨F, A, ids, h1, h2, _⟩ := h.inv
  obtain ⟨w, e1, _, _⟩ := Db.enableWatchlists_ok (bin := s.bins.byLit) h1.core.dbi (w := s.w)
    (fun c hc => ⟨h1.core.c.len c hc, h1.core.c.nodup c hc⟩) h1.core.wok
  refine ⟨w, ⟨imageWords s.db, s.p, s.varCount, byCode s.varCount w.watches⟩, e1, ⟨?_, rfl, rfl, rfl⟩⟩
  intro c hc
  refine ⟨_, imageWords_clause h1.core.dbi hc ?_⟩
  have hlt : ∀ l ∈ s.db.lits c, l.var < s.varCount := fun l hl => h1.lt _ (h1.core.c.vars c hc l hl).1
  have h3 : (s.db.lits c).map Lit.var ⊆ List.range s.varCount := by
    intro v hv
    obtain ⟨l, hl, rfl⟩ := List.mem_map.1 hv
    exact List.mem_range.2 (hlt l hl)
  have h4 := (List.subperm_of_subset (h1.core.c.nodup c hc) h3).length_le
  simp only [cls, List.length_map, List.length_range] at h4
  omega

/-- Partial: the source claims this for any contents of the buffer, which is false (`C68.unchecked`).
Whatever the lists of watches, the assignment and the other clauses are: if all watched references are those of clauses
with at least two literals, nothing outside of the arrays is accessed. -/
theorem C68.safe_partial {b : Buf} {st : Store} (u : Uses b st) {m : Mem} (hb : m.words = b.words)
    (hw : ∀ ws ∈ m.watches, ∀ x ∈ ws, ∃ h ls, st x.cref = some (h, ls) ∧ 2 ≤ ls.length)
    (ht : ∀ l ∈ m.p.trail, l.code < 2 ^ 32) {bins : List (List Lit)} (hbins : ∀ ls ∈ bins, ∀ l ∈ ls, l.code < 2 ^ 32) (n : Nat) :
    m.propLoop bins n ≠ .error .ub := by
  obtain ⟨ext, l⟩ := u.lay
  have hof : Of False m.words (fun c => ∃ h ls, st c = some (h, ls) ∧ 2 ≤ ls.length) m
      ⟨m.p, fun l => m.watches.getD l.code [], fun c => match st c with | some (_, ls) => ls.map toLit | none => []⟩ := by
    have hat : ∀ c h ls, st c = some (h, ls) → Buf.At ⟨m.words⟩ c (ext c) h ls := by
      intro c h ls hc
      have := l.at_ c h ls hc
      rwa [show (⟨m.words⟩ : Buf) = b by cases b; simp_all]
    refine ⟨rfl, ⟨?_, ?_, ?_, ?_, ?_, fun _ _ => rfl⟩, nofun, nofun, nofun, fun l hl => ⟨ht l hl, nofun⟩, fun _ _ => rfl, ?_⟩
    · rintro c ⟨h, ls, hc, _⟩
      simpa [hc] using (clause_some (hat c h ls hc).clause).1
    · rintro c ⟨h, ls, hc, h2⟩
      simpa [hc] using h2
    · rintro c ⟨h, ls, hc, _⟩
      simpa [hc] using (clause_some (hat c h ls hc).clause).2.1
    · rintro c ⟨h, ls, hc, _⟩ j k hj
      simp only [hc] at hj
      have hjl := (List.getElem?_eq_some_iff.1 hj).1
      simp only [List.length_map] at hjl
      rw [(clause_some (hat c h ls hc).clause).2.2.2 j hjl, ← List.getElem?_map]
      exact hj
    · rintro c d ⟨h, ls, hc, _⟩ ⟨h', ls', hd, _⟩ hcd
      have h1 := l.sep c d (by simp [hc]) (by simp [hd]) hcd
      have h2 := (hat c h ls hc).le
      simp only [hc, List.length_map]
      unfold Buf.headerLen at h1
      omega
    · intro l hl x hx
      have hmem : m.watches.getD l.code [] ∈ m.watches := by
        rw [List.getD_eq_getElem?_getD, List.getElem?_eq_getElem hl]
        exact List.getElem_mem hl
      exact ⟨hw _ hmem x hx, nofun⟩
  have hbo : BinOf False m.vars bins (fun l => bins.getD l.code []) := by
    refine ⟨nofun, fun _ _ => rfl, fun l hl k hk => ⟨hbins _ ?_ k hk, nofun⟩⟩
    rw [List.getD_eq_getElem?_getD, List.getElem?_eq_getElem hl]
    exact List.getElem_mem hl
  rcases Raw.propLoop_ok n m _ hof hbo with ⟨k, _⟩ | ⟨k, _⟩ | ⟨_, _, _, k, _⟩ <;> rw [k] <;> simp

/-- What the second check achieves, for any contents of the memory and any length: if a pointer outside of the buffer counts as an error only
when it is used, the part of a round after the first check stays within the arrays for every length of at least two. -/
theorem C68.checked {m : Mem} {lit : Lit} {x : Watch} {n wr : Nat} (h1 : wr < (m.watches.getD lit.code []).length) (h2 : 2 ≤ n) :
    m.replaceUse lit x n wr ≠ .error .ub := by
  have hF : ∀ (m : Mem) l, m.isFalse l ≠ .error .ub := by intro m l; unfold Mem.isFalse; split <;> simp
  have hE : ∀ (m : Mem) l r, m.enqueue l r ≠ .error .ub := by intro m l r; unfold Mem.enqueue; split <;> simp
  have hA : ∀ (m : Mem) l r, m.addWatch l r ≠ .error .ub := by intro m l r; unfold Mem.addWatch; split <;> simp
  unfold Mem.replaceUse Mem.replaceWith
  simp only [bind, Except.bind, pure, Except.pure]
  by_cases hb : x.cref + Buf.headerLen + n ≤ m.words.length
  · have p3 : m.checkBounds x.cref n = .ok () := by unfold Mem.checkBounds; rw [if_pos hb]
    simp only [p3]
    obtain ⟨s1, s2⟩ := m.search_noub (x.cref + Buf.headerLen + 2) (x.cref + Buf.headerLen + n) (by omega) (by omega)
    cases es : m.search (x.cref + Buf.headerLen + 2) (x.cref + Buf.headerLen + n) with
    | error e => intro h; simp only [Except.error.injEq] at h; subst h; exact s1 es
    | ok o =>
      cases o with
      | some q =>
        obtain ⟨j, l⟩ := q
        have hj := s2 j l es
        simp only
        unfold Mem.write
        rw [if_pos (by omega)]
        simp only [List.length_set]
        rw [if_pos hj]
        simp only []
        split
        · simp
        · cases ea : Mem.addWatch _ l.neg x with
          | error e => intro h; simp only [Except.error.injEq] at h; subst h; exact hA _ _ _ ea
          | ok _ => simp
      | none =>
        obtain ⟨m'', k⟩ : ∃ m'', m.writeWatch lit wr x = .ok m'' := by
          unfold Mem.writeWatch; rw [if_pos h1]; exact ⟨_, rfl⟩
        simp only [k]
        cases ef : m''.isFalse x.blocking with
        | error e => intro h; simp only [Except.error.injEq] at h; subst h; exact hF _ _ ef
        | ok b =>
          cases b with
          | true => simp
          | false =>
            simp only [Bool.false_eq_true, if_false]
            cases ee : m''.enqueue x.blocking (.long x.cref) with
            | error e => intro h; simp only [Except.error.injEq] at h; subst h; exact hE _ _ _ ee
            | ok _ => simp
  · have p3 : m.checkBounds x.cref n = .error .panic := by unfold Mem.checkBounds; rw [if_neg hb]
    simp [p3]

/-- What the checks do achieve, for any contents of the memory and any reference: in a round of the loop nothing outside of
the arrays is accessed if the length read is at least two and does not exceed the buffer. -/
theorem C68.round {m : Mem} {lit : Lit} {rd wr : Nat} (h1 : wr ≤ rd) (h2 : rd < (m.watches.getD lit.code []).length)
    (h3 : ∀ x n, (m.watches.getD lit.code [])[rd]? = some x → m.headerLen x.cref = .ok n →
      2 ≤ n ∧ x.cref + Buf.headerLen + n ≤ m.words.length) :
    m.step lit rd wr ≠ .error .ub := by
  have hwr : wr < (m.watches.getD lit.code []).length := by omega
  obtain ⟨x, hx⟩ : ∃ x, (m.watches.getD lit.code [])[rd]? = some x := ⟨_, List.getElem?_eq_getElem h2⟩
  have hT : ∀ (m : Mem) l, m.isTrue l ≠ .error .ub := by intro m l; unfold Mem.isTrue; split <;> simp
  have hF : ∀ (m : Mem) l, m.isFalse l ≠ .error .ub := by intro m l; unfold Mem.isFalse; split <;> simp
  have hE : ∀ (m : Mem) l r, m.enqueue l r ≠ .error .ub := by intro m l r; unfold Mem.enqueue; split <;> simp
  have hA : ∀ (m : Mem) l r, m.addWatch l r ≠ .error .ub := by intro m l r; unfold Mem.addWatch; split <;> simp
  have hW : ∀ (m' : Mem) y, m'.watches = m.watches → ∃ m'', m'.writeWatch lit wr y = .ok m'' := by
    intro m' y h
    unfold Mem.writeWatch
    rw [h, if_pos hwr]
    exact ⟨_, rfl⟩
  unfold Mem.step
  have e1 : m.readWatch lit rd = .ok x := by unfold Mem.readWatch; rw [hx]
  rw [e1]
  simp only [bind, Except.bind, pure, Except.pure]
  cases e2 : m.isTrue x.blocking with
  | error e => intro h; simp only [Except.error.injEq] at h; subst h; exact hT _ _ e2
  | ok b =>
    cases b with
    | true =>
      obtain ⟨m'', k⟩ := hW m x rfl
      simp [k]
    | false =>
      simp only [Bool.false_eq_true, if_false]
      unfold Mem.checkBounds
      by_cases hb : x.cref + Buf.headerLen + 3 ≤ m.words.length
      · simp only [hb, if_true]
        have e3 : m.pointer (x.cref + Buf.headerLen) = .ok (x.cref + Buf.headerLen) := by
          unfold Mem.pointer; rw [if_pos (by omega)]
        have e4 : ∃ n, m.headerLen x.cref = .ok n := by
          unfold Mem.headerLen; rw [if_pos (by omega)]; exact ⟨_, rfl⟩
        obtain ⟨n, e4⟩ := e4
        obtain ⟨hn, hn2⟩ := h3 x n hx e4
        have e5 : ∃ m' f, m.front (x.cref + Buf.headerLen) lit.neg = .ok (m', f) ∧ m'.words.length = m.words.length ∧
            m'.watches = m.watches := by
          unfold Mem.front Mem.read
          rw [List.getElem?_eq_getElem (by omega)]
          simp only [bind, Except.bind, pure, Except.pure]
          split
          · rw [List.getElem?_eq_getElem (by omega)]
            simp only []
            unfold Mem.write
            rw [if_pos (by omega)]
            simp only [List.length_set]
            rw [if_pos (by omega)]
            exact ⟨_, _, rfl, by simp, rfl⟩
          · exact ⟨_, _, rfl, rfl, rfl⟩
        obtain ⟨m', f, e5, hl, hw⟩ := e5
        rw [e3, e4]
        simp only [e5]
        have hrep : m'.replace lit ⟨x.cref, f⟩ n wr ≠ .error .ub := by
          unfold Mem.replace Mem.replaceWith
          simp only [bind, Except.bind, pure, Except.pure]
          have p1 : m'.pointer (x.cref + Buf.headerLen + 2) = .ok (x.cref + Buf.headerLen + 2) := by
            unfold Mem.pointer; rw [if_pos (by omega)]
          have p2 : m'.pointer (x.cref + Buf.headerLen + n) = .ok (x.cref + Buf.headerLen + n) := by
            unfold Mem.pointer; rw [if_pos (by omega)]
          have p3 : m'.checkBounds x.cref n = .ok () := by
            unfold Mem.checkBounds; rw [if_pos (by omega)]
          rw [p1, p2]; simp only [p3]
          obtain ⟨s1, s2⟩ := m'.search_noub (x.cref + Buf.headerLen + 2) (x.cref + Buf.headerLen + n) (by omega) (by omega)
          cases es : m'.search (x.cref + Buf.headerLen + 2) (x.cref + Buf.headerLen + n) with
          | error e => intro h; simp only [Except.error.injEq] at h; subst h; exact s1 es
          | ok o =>
            cases o with
            | some q =>
              obtain ⟨j, l⟩ := q
              have hj := s2 j l es
              simp only
              unfold Mem.write
              rw [if_pos (by omega)]
              simp only [List.length_set]
              rw [if_pos hj]
              simp only []
              split
              · simp
              · cases ea : Mem.addWatch _ l.neg ⟨x.cref, f⟩ with
                | error e => intro h; simp only [Except.error.injEq] at h; subst h; exact hA _ _ _ ea
                | ok _ => simp
            | none =>
              obtain ⟨m'', k⟩ := hW m' ⟨x.cref, f⟩ hw
              simp only [k]
              cases ef : m''.isFalse f with
              | error e => intro h; simp only [Except.error.injEq] at h; subst h; exact hF _ _ ef
              | ok b =>
                cases b with
                | true => simp
                | false =>
                  simp only [Bool.false_eq_true, if_false]
                  cases ee : m''.enqueue f (.long x.cref) with
                  | error e => intro h; simp only [Except.error.injEq] at h; subst h; exact hE _ _ _ ee
                  | ok _ => simp
        obtain ⟨m'', k⟩ := hW m' ⟨x.cref, f⟩ hw
        by_cases hfx : f = x.blocking
        · simp only [hfx, if_true]
          rw [hfx] at hrep
          exact hrep
        · simp only [hfx, if_false]
          cases et : m'.isTrue f with
          | error e => intro h; simp only [Except.error.injEq] at h; subst h; exact hT _ _ et
          | ok b =>
            cases b with
            | true => simp [k]
            | false => simpa using hrep
      · simp [hb]

/-- The comment of `long.rs:26-28` says that the bound checks make the function safe even if other code violates invariants
of the clause database. They do not: a stored clause with a single literal is enough for the loop to run beyond the end of
the buffer. -/
theorem C68.unchecked : ∃ (b : Buf) (st : Store) (m : Mem) (lit : Lit), Uses b st ∧ m.words = b.words ∧
    (∀ ws ∈ m.watches, ∀ x ∈ ws, ∃ h ls, st x.cref = some (h, ls)) ∧ (∀ w ∈ m.words.drop 3, (toLit w).var < m.vars) ∧
    m.propLong lit = .error .ub := by
  let lits : List Word := [0, 2, 4]
  let h : Header := ⟨fun _ => 0⟩
  have u0 := Uses.add (header := h) (lits := lits) Uses.empty (by decide) rfl
  have u1 := Uses.shrink (c := 0) 1 u0 rfl (by decide) rfl
  let p : Pt := { value := fun _ => some false, trail := [⟨1⟩] }
  refine ⟨_, _, { words := [0, 0, 1, 0, 2, 4], p := p, vars := 3, watches := [[], [⟨0, ⟨2⟩⟩], [], [], [], []] }, ⟨1⟩, u1, ?_, ?_, ?_, ?_⟩
  · rfl
  · intro ws hws x hx
    refine ⟨h.setLen 3 |>.setLen 1, [0], ?_⟩
    have : x = ⟨0, ⟨2⟩⟩ := by
      simp at hws
      rcases hws with rfl | rfl | rfl <;> simp_all
    subst this
    rfl
  · intro w hw
    simp at hw
    rcases hw with rfl | rfl | rfl <;> decide
  · have key : ∀ r : Except Fault (Mem × Option Conflict), (match r with | .error e => some e | .ok _ => none) = some Fault.ub →
        r = .error .ub := by
      intro r hr
      cases r <;> simp_all
    exact key _ (by decide +kernel)

/-- A state of a search in which a clause with three literals propagates its last literal. -/
example : ∃ (s : St Nat) (w : Wl) (m : Mem), Search s .ready ∧ s.db.enableWatchlists s.w = some w ∧ Image s w m ∧
    s.varCount ≤ 2 ^ 31 ∧ s.p.trail.length = 2 ∧
    ∃ m', m.propLoop (byCode s.varCount s.bins.byLit) (s.varCount + 1) = .ok (m', none) ∧ m'.p.trail.length = 3 := by
  obtain ⟨s, ph, h1, h2⟩ := Sample.peek_search
    (f := fun s ph => (match ph with | .ready => true | _ => false, s.varCount, s.p.trail.length,
      match s.propagate with | .ok (s', none) => s'.p.trail.length | _ => 0))
    (ops := [Sample.cl [1, 2, 3]]) (ms := [.propagate, .simplify, .decision, .propagate, .simplify, .decision])
    (x := (true, 3, 2, 3)) (by decide +kernel)
  simp only [Prod.mk.injEq] at h2
  obtain ⟨h3, h4, h5, h6⟩ := h2
  cases ph with
  | ready =>
    obtain ⟨w, m, k1, k2⟩ := C68.image h1 (by omega)
    obtain ⟨s', o, m', k3, k4, k5, _⟩ := C68.exact h1 k1 k2 (by omega)
    rw [k3] at h6
    cases o with
    | none => exact ⟨s, w, m, h1, k1, k2, by omega, h5, m', k4, by rw [k5.p]; exact h6⟩
    | some c => simp at h6
  | _ => simp at h3

/-- Hypotheses of `C68.safe_partial`: the clause is moved to the list of another literal. -/
example : ∃ (b : Buf) (st : Store) (m : Mem), Uses b st ∧ m.words = b.words ∧
    (∀ ws ∈ m.watches, ∀ x ∈ ws, ∃ h ls, st x.cref = some (h, ls) ∧ 2 ≤ ls.length) ∧ (∀ l ∈ m.p.trail, l.code < 2 ^ 32) ∧
    (match m.propLoop [[], [], [], [], [], []] 4 with
      | .ok (m', o) => some (m'.words, m'.watches, o)
      | .error _ => none) = some ([0, 0, 3, 2, 4, 0], [[], [], [], [], [], [⟨0, ⟨2⟩⟩]], none) := by
  let h : Header := ⟨fun _ => 0⟩
  have u := Uses.add (header := h) (lits := [0, 2, 4]) Uses.empty (by decide) rfl
  let p : Pt := { value := fun v => if v = 0 then some false else none, trail := [⟨1⟩] }
  refine ⟨_, _, { words := [0, 0, 3, 0, 2, 4], p := p, vars := 3, watches := [[], [⟨0, ⟨2⟩⟩], [], [], [], []] }, u, rfl, ?_, ?_, ?_⟩
  · intro ws hws x hx
    refine ⟨h.setLen 3, [0, 2, 4], ?_, by decide⟩
    have : x = ⟨0, ⟨2⟩⟩ := by
      simp at hws
      rcases hws with rfl | rfl | rfl <;> simp_all
    subst this
    rfl
  · intro l hl
    have : l = ⟨1⟩ := by simpa [p] using hl
    subst this
    decide
  · decide +kernel

/-- Hypotheses of `C68.round`, for a reference that is not that of a clause. -/
example : ∃ (m : Mem) (lit : Lit) (x : Watch) (n : Nat), m.watches.getD lit.code [] = [x] ∧ m.headerLen x.cref = .ok n ∧ 2 ≤ n ∧
    x.cref + Buf.headerLen + n ≤ m.words.length ∧
    (match m.step lit 0 0 with | .ok (m, k) => some (m.words, m.watches, k) | .error _ => none) =
      some ([9, 9, 9, 4, 2, 1, 4, 3], [[⟨1, ⟨2⟩⟩], [], [⟨1, ⟨4⟩⟩]], 0, none) := by
  let p : Pt := { value := fun _ => some false }
  exact ⟨⟨[9, 9, 9, 4, 2, 3, 4, 1], p, 3, [[], [], [⟨1, ⟨4⟩⟩]]⟩, ⟨2⟩, ⟨1, ⟨4⟩⟩, 4, rfl, by decide +kernel, by decide, by decide,
    by decide +kernel⟩

/-- For `C68.checked`: a length that exceeds the buffer, with all literals false. The search would leave the buffer; the check stops it. -/
example : ∃ (m : Mem) (lit : Lit) (x : Watch) (n : Nat), 0 < (m.watches.getD lit.code []).length ∧ 2 ≤ n ∧ m.words.length < x.cref + Buf.headerLen + n ∧
    (match m.search (x.cref + Buf.headerLen + 2) (x.cref + Buf.headerLen + n) with | .error .ub => true | _ => false) = true ∧
    (match m.replaceUse lit x n 0 with | .error .panic => true | _ => false) = true := by
  let p : Pt := { value := fun v => some (decide (v = 0)) }
  exact ⟨⟨[0, 0, 9, 4, 3, 1], p, 3, [[], [], [⟨0, ⟨4⟩⟩]]⟩, ⟨2⟩, ⟨0, ⟨4⟩⟩, 9, by decide, by decide, by decide, by decide +kernel, by decide +kernel⟩

end Varisat.Solver
