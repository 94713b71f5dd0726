import Verif.Model.Solver.PropRaw
import Verif.Proof.Solver.Trail
import Verif.Proof.AllocUses
/-! # Propagation through raw pointers: what it does to the buffer and to the lists of watches -/
namespace Varisat.Solver.Raw

/-- The buffer holds the clauses of `D`, in disjoint regions; everything else is as in `W`. -/
structure Stored (W : List Word) (D : Nat → Prop) (lits : Nat → List Lit) (ws : List Word) : Prop where
  inside : ∀ c, D c → c + 3 + (lits c).length ≤ ws.length
  two : ∀ c, D c → 2 ≤ (lits c).length
  head : ∀ c, D c → (ws.getD (c + 2) 0).toNat = (lits c).length
  word : ∀ c, D c → ∀ j l, (lits c)[j]? = some l → ws[c + 3 + j]?.map toLit = some l
  sep : ∀ c d, D c → D d → c < d → c + 3 + (lits c).length ≤ d
  frame : ∀ i, (∀ c, D c → i < c + 3 ∨ c + 3 + (lits c).length ≤ i) → ws[i]? = W[i]?

theorem toLit_ofLit {l : Lit} (h : l.code < 2 ^ 32) : toLit (ofLit l) = l := by
  cases l with
  | mk c => simp only [toLit, ofLit, BitVec.toNat_ofNat]; congr; exact Nat.mod_eq_of_lt h

theorem head_len (ws : List Word) (c : Nat) : (Header.ofWords (Buf.slice ws c Buf.headerLen)).len = (ws.getD (c + 2) 0).toNat := by
  simp only [Header.len, Header.ofWords, Buf.headerLen, List.getD_eq_getElem?_getD, Buf.slice_get]
  simp

theorem put_self {ι β : Type} [DecidableEq ι] (f : ι → β) (i : ι) : put f i (f i) = f := by
  funext j; unfold put; split
  · rename_i h; rw [h]
  · rfl

theorem Stored.write {W : List Word} {D : Nat → Prop} {lits : Nat → List Lit} {ws : List Word} (h : Stored W D lits ws) {c j : Nat} {l : Lit}
    (hc : D c) (hj : j < (lits c).length) (hl : l.code < 2 ^ 32) :
    Stored W D (put lits c ((lits c).set j l)) (ws.set (c + 3 + j) (ofLit l)) := by
  have hin := h.inside c hc
  have hlen : ∀ d, (put lits c ((lits c).set j l) d).length = (lits d).length := by
    intro d; unfold put; split
    · rename_i e; subst e; simp
    · rfl
  have away : ∀ d, D d → d ≠ c → d + 3 + (lits d).length ≤ c + 3 + j ∨ c + 3 + j < d := by
    intro d hd hn
    rcases Nat.lt_or_gt_of_ne hn with k | k
    · have := h.sep d c hd hc k; omega
    · have := h.sep c d hc hd k; omega
  constructor
  · intro d hd; rw [hlen, List.length_set]; exact h.inside d hd
  · intro d hd; rw [hlen]; exact h.two d hd
  · intro d hd
    rw [hlen, ← h.head d hd, List.getD_eq_getElem?_getD, List.getD_eq_getElem?_getD, List.getElem?_set_ne]
    by_cases e : d = c
    · subst e; omega
    · rcases away d hd e <;> omega
  · intro d hd i k hk
    by_cases e : d = c
    · subst e
      rw [put_same] at hk
      by_cases hij : j = i
      · subst hij
        rw [List.getElem?_set_self hj] at hk
        cases hk
        rw [List.getElem?_set_self (by omega)]
        simp [toLit_ofLit hl]
      · rw [List.getElem?_set_ne hij] at hk
        rw [List.getElem?_set_ne (by omega)]
        exact h.word d hd i k hk
    · rw [put_ne _ _ e] at hk
      have hi := (List.getElem?_eq_some_iff.1 hk).1
      rw [List.getElem?_set_ne (by rcases away d hd e <;> omega)]
      exact h.word d hd i k hk
  · intro d e hd he hde
    rw [hlen]; exact h.sep d e hd he hde
  · intro i hi
    rw [List.getElem?_set_ne]
    · refine h.frame i (fun d hd => ?_)
      have := hi d hd
      rwa [hlen] at this
    · have := hi c hc
      rw [hlen] at this
      omega

theorem code_neg {l : Lit} (h : l.code < 2 ^ 32) : l.neg.code < 2 ^ 32 := by
  have e : l.neg.var = l.var := Lit.var_neg l
  unfold Lit.var at e
  have : l.neg.code / 2 = l.code / 2 := e
  omega

/-- The watches of a list refer to clauses. -/
def WOk (lim : Prop) (D : Nat → Prop) (vars : Nat) (ws : List Watch) : Prop :=
  ∀ x ∈ ws, D x.cref ∧ (lim → x.blocking.var < vars)

/-- Literals of 32 bits; with `lim` they are within the arrays. -/
def LOk (lim : Prop) (vars : Nat) (ls : List Lit) : Prop := ∀ l ∈ ls, l.code < 2 ^ 32 ∧ (lim → l.var < vars)

/-- The memory during the loop of `propagate_long`. With `lim` everything is within the arrays. -/
structure Rel (lim : Prop) (W : List Word) (D : Nat → Prop) (lit : Lit) (m : Mem) (s : Ps) (kept rest : List Watch) (rd wr : Nat) : Prop where
  p : m.p = s.p
  st : Stored W D s.lits m.words
  wlim : lim → m.watches.length = 2 * m.vars
  c3 : lim → ∀ c, D c → 3 ≤ (s.lits c).length
  lv : lim → ∀ c, D c → ∀ l ∈ s.lits c, l.var < m.vars
  tr : LOk lim m.vars m.p.trail
  other : ∀ l, l ≠ lit → l.code < m.watches.length → m.watches.getD l.code [] = s.watches l
  oth : ∀ l, l ≠ lit → l.code < m.watches.length → WOk lim D m.vars (s.watches l)
  take : (m.watches.getD lit.code []).take wr = kept
  drop : (m.watches.getD lit.code []).drop rd = rest
  le : wr ≤ rd ∧ rd ≤ (m.watches.getD lit.code []).length
  wk : WOk lim D m.vars kept
  wr : WOk lim D m.vars rest
  code : lit.code < m.watches.length ∧ lit.code < 2 ^ 32

variable {lim : Prop} {W : List Word} {D : Nat → Prop} {lit : Lit} {m : Mem} {s : Ps} {kept rest : List Watch} {rd wr : Nat}

theorem Rel.readWatch {x : Watch} (h : Rel lim W D lit m s kept (x :: rest) rd wr) : m.readWatch lit rd = .ok x := by
  have : (m.watches.getD lit.code [])[rd]? = some x := by
    have := congrArg (·[0]?) h.drop
    simpa [List.getElem?_drop] using this
  unfold Mem.readWatch; rw [this]

theorem getD_modify (ws : List (List Watch)) (i : Nat) (f : List Watch → List Watch) (h : i < ws.length) :
    (ws.modify i f).getD i [] = f (ws.getD i []) := by
  simp [List.getD_eq_getElem?_getD, List.getElem?_modify, h]

theorem getD_modify_ne (ws : List (List Watch)) (i j : Nat) (f : List Watch → List Watch) (h : i ≠ j) :
    (ws.modify i f).getD j [] = ws.getD j [] := by
  simp [List.getD_eq_getElem?_getD, List.getElem?_modify, h]

theorem code_ne {l k : Lit} (h : l ≠ k) : k.code ≠ l.code := by
  cases l; cases k; intro e; apply h; simp_all

theorem Rel.drop_length {x : Watch} (h : Rel lim W D lit m s kept (x :: rest) rd wr) :
    rd < (m.watches.getD lit.code []).length := by
  by_contra hn
  have := h.drop
  rw [List.drop_of_length_le (by omega)] at this
  cases this

/-- The watch is read and one is written. -/
theorem Rel.writeWatch {x y : Watch} (h : Rel lim W D lit m s kept (x :: rest) rd wr)
    (hy : D y.cref ∧ (lim → y.blocking.var < m.vars)) :
    m.writeWatch lit wr y = .ok { m with watches := m.watches.modify lit.code (·.set wr y) } ∧
    Rel lim W D lit { m with watches := m.watches.modify lit.code (·.set wr y) } s (kept ++ [y]) rest (rd + 1) (wr + 1) := by
  have hl := h.drop_length
  have hle := h.le
  have hwr : wr < (m.watches.getD lit.code []).length := by omega
  refine ⟨by unfold Mem.writeWatch; rw [if_pos hwr], ?_⟩
  have hm := getD_modify m.watches lit.code (·.set wr y) h.code.1
  refine ⟨h.p, h.st, ?_, h.c3, h.lv, h.tr, ?_, ?_, ?_, ?_, ?_, ?_, ?_, ?_⟩
  · intro hlim; simpa using h.wlim hlim
  · intro l hl hc
    simp only [List.length_modify] at hc
    show (m.watches.modify lit.code (·.set wr y)).getD l.code [] = _
    rw [getD_modify_ne _ _ _ _ (code_ne hl)]
    exact h.other l hl hc
  · intro l hl hc
    simp only [List.length_modify] at hc
    exact h.oth l hl hc
  · show ((m.watches.modify lit.code (·.set wr y)).getD lit.code []).take (wr + 1) = _
    rw [hm, List.take_succ, List.getElem?_set_self hwr, List.take_set_of_le (Nat.le_refl _), h.take]
    rfl
  · show ((m.watches.modify lit.code (·.set wr y)).getD lit.code []).drop (rd + 1) = _
    rw [hm, List.drop_set_of_lt (by omega)]
    have := congrArg List.tail h.drop
    simpa [List.tail_drop] using this
  · show _ ∧ _ ≤ ((m.watches.modify lit.code (·.set wr y)).getD lit.code []).length
    rw [hm, List.length_set]; omega
  · intro z hz
    rcases List.mem_append.1 hz with k | k
    · exact h.wk z k
    · simp only [List.mem_singleton] at k; subst k; exact hy
  · intro z hz; exact h.wr z (by simp [hz])
  · simpa using h.code

/-- The watch is read and not kept. -/
theorem Rel.skip {x : Watch} (h : Rel lim W D lit m s kept (x :: rest) rd wr) : Rel lim W D lit m s kept rest (rd + 1) wr := by
  have hl := h.drop_length
  have hle := h.le
  refine ⟨h.p, h.st, h.wlim, h.c3, h.lv, h.tr, h.other, h.oth, h.take, ?_, ⟨by omega, by omega⟩, h.wk, ?_, h.code⟩
  · have := congrArg List.tail h.drop
    simpa [List.tail_drop] using this
  · intro z hz; exact h.wr z (by simp [hz])

/-- A literal of a clause is written. -/
theorem Rel.write (h : Rel lim W D lit m s kept rest rd wr) {c j : Nat} {l : Lit} (hc : D c)
    (hj : j < (s.lits c).length) (hl : l.code < 2 ^ 32) (hv : lim → l.var < m.vars) :
    m.write (c + 3 + j) l = .ok { m with words := m.words.set (c + 3 + j) (ofLit l) } ∧
    Rel lim W D lit { m with words := m.words.set (c + 3 + j) (ofLit l) }
      { s with lits := put s.lits c ((s.lits c).set j l) } kept rest rd wr := by
  have hin := h.st.inside c hc
  refine ⟨by unfold Mem.write; rw [if_pos (by omega)], ⟨h.p, h.st.write hc hj hl, h.wlim, ?_, ?_, h.tr, h.other, h.oth, h.take,
    h.drop, h.le, h.wk, h.wr, h.code⟩⟩
  · intro hlim d hd
    show 3 ≤ (put s.lits c ((s.lits c).set j l) d).length
    by_cases e : d = c
    · subst e; rw [put_same, List.length_set]; exact h.c3 hlim d hd
    · rw [put_ne _ _ e]; exact h.c3 hlim d hd
  · intro hlim d hd k hk
    replace hk : k ∈ put s.lits c ((s.lits c).set j l) d := hk
    by_cases e : d = c
    · subst e; rw [put_same] at hk
      rcases List.mem_or_eq_of_mem_set hk with hk | rfl
      · exact h.lv hlim d hd k hk
      · exact hv hlim
    · rw [put_ne _ _ e] at hk; exact h.lv hlim d hd k hk

theorem Rel.read (h : Rel lim W D lit m s kept rest rd wr) {c j : Nat} {l : Lit} (hc : D c)
    (hj : (s.lits c)[j]? = some l) : m.read (c + 3 + j) = .ok l := by
  have := h.st.word c hc j l hj
  unfold Mem.read
  cases hw : m.words[c + 3 + j]? with
  | none => simp [hw] at this
  | some w => simp [hw] at this; simp [this]

theorem Rel.lit_code (h : Rel lim W D lit m s kept rest rd wr) {c j : Nat} {l : Lit} (hc : D c)
    (hj : (s.lits c)[j]? = some l) : l.code < 2 ^ 32 := by
  have := h.st.word c hc j l hj
  cases hw : m.words[c + 3 + j]? with
  | none => simp [hw] at this
  | some w => simp [hw] at this; subst this; exact w.isLt

theorem Rel.lit_var (h : Rel lim W D lit m s kept rest rd wr) (hl : lim) : lit.var < m.vars := by
  have h1 := h.wlim hl
  have h2 := h.code.1
  simp only [Lit.var]
  omega

theorem Rel.addWatch (h : Rel lim W D lit m s kept rest rd wr) {l : Lit} {x : Watch} (hl : l ≠ lit)
    (hc : l.code < m.watches.length) (hx : D x.cref ∧ (lim → x.blocking.var < m.vars)) :
    m.addWatch l x = .ok { m with watches := m.watches.modify l.code (· ++ [x]) } ∧
    Rel lim W D lit { m with watches := m.watches.modify l.code (· ++ [x]) }
      { s with watches := Solver.addWatch s.watches l x } kept rest rd wr := by
  refine ⟨by unfold Mem.addWatch; rw [if_pos hc], ?_⟩
  have hm := getD_modify m.watches l.code (· ++ [x]) hc
  have hn := getD_modify_ne m.watches l.code lit.code (· ++ [x]) (code_ne (Ne.symm hl))
  refine ⟨h.p, h.st, ?_, h.c3, h.lv, h.tr, ?_, ?_, ?_, ?_, ?_, h.wk, h.wr, ?_⟩
  · intro hlim; simpa using h.wlim hlim
  · intro k hk hkc
    simp only [List.length_modify] at hkc
    show (m.watches.modify l.code (· ++ [x])).getD k.code [] = Solver.addWatch s.watches l x k
    unfold Solver.addWatch
    by_cases e : k = l
    · subst e; rw [put_same, hm, h.other _ hk hkc]
    · rw [put_ne _ _ e, getD_modify_ne _ _ _ _ (code_ne e)]; exact h.other k hk hkc
  · intro k hk hkc
    simp only [List.length_modify] at hkc
    show WOk lim D m.vars (Solver.addWatch s.watches l x k)
    unfold Solver.addWatch
    by_cases e : k = l
    · subst e; rw [put_same]
      intro z hz
      rcases List.mem_append.1 hz with hz | hz
      · exact h.oth _ hk hkc z hz
      · simp only [List.mem_singleton] at hz; subst hz; exact hx
    · rw [put_ne _ _ e]; exact h.oth k hk hkc
  · show ((m.watches.modify l.code (· ++ [x])).getD lit.code []).take wr = _
    rw [hn]; exact h.take
  · show ((m.watches.modify l.code (· ++ [x])).getD lit.code []).drop rd = _
    rw [hn]; exact h.drop
  · show _ ∧ _ ≤ ((m.watches.modify l.code (· ++ [x])).getD lit.code []).length
    rw [hn]; exact h.le
  · simpa using h.code

theorem Rel.enqueue (h : Rel lim W D lit m s kept rest rd wr) {l : Lit} (r : Reason) (hl : l.var < m.vars) (h32 : l.code < 2 ^ 32) :
    m.enqueue l r = .ok { m with p := m.p.enqueue l r } ∧
    Rel lim W D lit { m with p := m.p.enqueue l r } { s with p := s.p.enqueue l r } kept rest rd wr := by
  refine ⟨by unfold Mem.enqueue; rw [if_pos hl], ?_⟩
  refine ⟨?_, h.st, h.wlim, h.c3, h.lv, ?_, h.other, h.oth, h.take, h.drop, h.le, h.wk, h.wr, h.code⟩
  · show m.p.enqueue l r = _
    rw [h.p]
  · intro k hk
    rcases List.mem_append.1 hk with hk | hk
    · exact h.tr k hk
    · simp only [List.mem_singleton] at hk; subst hk; exact ⟨h32, fun _ => hl⟩

/-- The search for a literal. -/
theorem search_ok (h : Rel lim W D lit m s kept rest rd wr) {c : Nat} (hc : D c) (fl : Lit) :
    ∀ (ls pre : List Lit), s.lits c = pre ++ ls →
    (m.search (c + 3 + pre.length) (c + 3 + (s.lits c).length) = .error .panic ∧ ¬ lim) ∨
    (m.search (c + 3 + pre.length) (c + 3 + (s.lits c).length) = .ok none ∧ findRest s.p fl ls = none) ∨
    ∃ j l, m.search (c + 3 + pre.length) (c + 3 + (s.lits c).length) = .ok (some (c + 3 + (pre.length + j), l)) ∧
      ls[j]? = some l ∧ findRest s.p fl ls = some (l, ls.set j fl)
  | [], pre, e => by
    refine Or.inr (Or.inl ⟨?_, rfl⟩)
    rw [Mem.search, if_pos (by rw [e]; simp)]
  | l :: ls, pre, e => by
    have hj : (s.lits c)[pre.length]? = some l := by rw [e]; simp
    have hne : c + 3 + pre.length ≠ c + 3 + (s.lits c).length := by rw [e]; simp
    have hw := h.st.word c hc _ l hj
    cases hw' : m.words[c + 3 + pre.length]? with
    | none => simp [hw'] at hw
    | some w =>
      simp only [hw', Option.map_some, Option.some.injEq] at hw
      subst hw
      have key : m.search (c + 3 + pre.length) (c + 3 + (s.lits c).length) =
          match m.isFalse (toLit w) with
          | .error e => .error e
          | .ok false => .ok (some (c + 3 + pre.length, toLit w))
          | .ok true => m.search (c + 3 + pre.length + 1) (c + 3 + (s.lits c).length) := by
        rw [Mem.search, if_neg hne]
        split
        · rename_i k; rw [hw'] at k; cases k
        · rename_i w' k; rw [hw'] at k; cases k; rfl
      by_cases hv : (toLit w).var < m.vars
      · have hf : m.isFalse (toLit w) = .ok (s.p.isFalse (toLit w)) := by
          unfold Mem.isFalse; rw [if_pos hv, h.p]
        rw [hf] at key
        cases hb : s.p.isFalse (toLit w) with
        | false =>
          rw [hb] at key
          refine Or.inr (Or.inr ⟨0, toLit w, key, rfl, ?_⟩)
          simp [findRest, hb]
        | true =>
          rw [hb] at key
          have ih := search_ok h hc fl ls (pre ++ [toLit w]) (by rw [e]; simp)
          simp only [List.length_append, List.length_singleton] at ih
          rw [show c + 3 + (pre.length + 1) = c + 3 + pre.length + 1 by omega] at ih
          simp only at key
          rw [key]
          rcases ih with ih | ⟨i1, i2⟩ | ⟨j, k, i1, i2, i3⟩
          · exact Or.inl ih
          · refine Or.inr (Or.inl ⟨i1, ?_⟩)
            simp [findRest, hb, i2]
          · refine Or.inr (Or.inr ⟨j + 1, k, ?_, ?_, ?_⟩)
            · rw [i1, show pre.length + 1 + j = pre.length + (j + 1) by omega]
            · simpa using i2
            · simp [findRest, hb, i3]
      · refine Or.inl ⟨?_, fun hl => hv (h.lv hl c hc _ (List.mem_of_getElem? hj))⟩
        have hf : m.isFalse (toLit w) = .error .panic := by
          unfold Mem.isFalse; rw [if_neg hv]
        rw [key, hf]

theorem put_put {ι β : Type} [DecidableEq ι] (f : ι → β) (i : ι) (a b : β) : put (put f i a) i b = put f i b := by
  funext j; unfold put; split <;> rfl

/-- The swap of the first two literals. -/
theorem front_ok (h : Rel lim W D lit m s kept rest rd wr) {c : Nat} (hc : D c) {c0 c1 : Lit} {cs : List Lit}
    (e : s.lits c = c0 :: c1 :: cs) :
    ∃ ws, m.front (c + 3) lit.neg = .ok ({ m with words := ws }, if c0 = lit.neg then c1 else c0) ∧
      ws.length = m.words.length ∧
      Rel lim W D lit { m with words := ws }
        ⟨s.p, s.watches, put s.lits c ((if c0 = lit.neg then c1 else c0) :: (if c0 = lit.neg then lit.neg else c1) :: cs)⟩
        kept rest rd wr := by
  have r0 : m.read (c + 3) = .ok c0 := h.read (j := 0) hc (by rw [e]; rfl)
  have r1 : m.read (c + 3 + 1) = .ok c1 := h.read (j := 1) hc (by rw [e]; rfl)
  unfold Mem.front
  simp only [r0, bind, Except.bind, pure, Except.pure]
  by_cases hf : c0 = lit.neg
  · simp only [hf, if_true, r1]
    obtain ⟨w1, h1⟩ := h.write (c := c) (j := 0) (l := c1) hc (by rw [e]; simp) (h.lit_code hc (j := 1) (by rw [e]; rfl))
      (fun hl => h.lv hl c hc _ (by rw [e]; simp))
    rw [Nat.add_zero] at w1 h1
    rw [w1]
    simp only
    obtain ⟨w2, h2⟩ := h1.write (c := c) (j := 1) (l := lit.neg) hc (by simp [put_same, e]) (code_neg h.code.2)
      (fun hl => by rw [Lit.var_neg]; exact h.lit_var hl)
    rw [w2]
    refine ⟨_, rfl, by simp, ?_⟩
    simpa [put_same, put_put, e] using h2
  · simp only [hf, if_false]
    refine ⟨m.words, rfl, rfl, ?_⟩
    have : put s.lits c (c0 :: c1 :: cs) = s.lits := by rw [← e, put_self]
    rw [this]
    exact h

theorem isTrue_ok (h : Rel lim W D lit m s kept rest rd wr) {l : Lit} (hl : l.var < m.vars) : m.isTrue l = .ok (s.p.isTrue l) := by
  unfold Mem.isTrue; rw [if_pos hl, h.p]

theorem isTrue_panic {l : Lit} (hl : ¬ l.var < m.vars) : m.isTrue l = .error .panic := by
  unfold Mem.isTrue; rw [if_neg hl]

theorem isFalse_ok (h : Rel lim W D lit m s kept rest rd wr) {l : Lit} (hl : l.var < m.vars) : m.isFalse l = .ok (s.p.isFalse l) := by
  unfold Mem.isFalse; rw [if_pos hl, h.p]

theorem isFalse_panic {l : Lit} (hl : ¬ l.var < m.vars) : m.isFalse l = .error .panic := by
  unfold Mem.isFalse; rw [if_neg hl]

/-- What a round does, compared to `longStep`. -/
def Round (lim : Prop) (W : List Word) (D : Nat → Prop) (lit : Lit) (vars n : Nat) (kept rest : List Watch) (rd wr : Nat)
    (r : Except Fault (Mem × Nat × Option Nat)) (a : Option (Ps × Kept)) : Prop :=
  (r = .error .panic ∧ (lim → a = none)) ∨
  ∃ m' s' k, a = some (s', k) ∧ m'.vars = vars ∧ m'.watches.length = n ∧ match k with
    | .keep y => r = .ok (m', wr + 1, none) ∧ Rel lim W D lit m' s' (kept ++ [y]) rest (rd + 1) (wr + 1)
    | .moved => r = .ok (m', wr, none) ∧ Rel lim W D lit m' s' kept rest (rd + 1) wr
    | .conflict y => r = .ok (m', wr + 1, some y.cref) ∧ Rel lim W D lit m' s' (kept ++ [y]) rest (rd + 1) (wr + 1)

theorem Round.keep {vars n : Nat} {r : Except Fault (Mem × Nat × Option Nat)} {m' : Mem} {s' : Ps} {y : Watch}
    (h : Rel lim W D lit m' s' (kept ++ [y]) rest (rd + 1) (wr + 1)) (hr : r = .ok (m', wr + 1, none))
    (h1 : m'.vars = vars) (h2 : m'.watches.length = n) : Round lim W D lit vars n kept rest rd wr r (some (s', .keep y)) :=
  Or.inr ⟨m', s', .keep y, rfl, h1, h2, hr, h⟩

theorem Round.conflict {vars n : Nat} {r : Except Fault (Mem × Nat × Option Nat)} {m' : Mem} {s' : Ps} {y : Watch}
    (h : Rel lim W D lit m' s' (kept ++ [y]) rest (rd + 1) (wr + 1)) (hr : r = .ok (m', wr + 1, some y.cref))
    (h1 : m'.vars = vars) (h2 : m'.watches.length = n) : Round lim W D lit vars n kept rest rd wr r (some (s', .conflict y)) :=
  Or.inr ⟨m', s', .conflict y, rfl, h1, h2, hr, h⟩

theorem Round.moved {vars n : Nat} {r : Except Fault (Mem × Nat × Option Nat)} {m' : Mem} {s' : Ps}
    (h : Rel lim W D lit m' s' kept rest (rd + 1) wr) (hr : r = .ok (m', wr, none))
    (h1 : m'.vars = vars) (h2 : m'.watches.length = n) : Round lim W D lit vars n kept rest rd wr r (some (s', .moved)) :=
  Or.inr ⟨m', s', .moved, rfl, h1, h2, hr, h⟩

theorem replace_ok {x y : Watch} (h : Rel lim W D lit m s kept (x :: rest) rd wr) {first second : Lit} {cs : List Lit}
    (hy : D y.cref) (e : s.lits y.cref = first :: second :: cs) (hb : y.blocking = first) :
    Round lim W D lit m.vars m.watches.length kept rest rd wr (m.replace lit y (s.lits y.cref).length wr)
      (match findRest s.p lit.neg cs with
        | some (restLit, cs) =>
          if restLit.neg = lit then none
          else some ({ s with
            lits := put s.lits y.cref (first :: restLit :: cs)
            watches := addWatch s.watches restLit.neg y }, .moved)
        | none =>
          if s.p.isFalse first then some (s, .conflict y)
          else some ({ s with p := s.p.enqueue first (.long y.cref) }, .keep y)) := by
  have hin := h.st.inside _ hy
  have h2 := h.st.two _ hy
  have hlen : (s.lits y.cref).length = cs.length + 2 := by rw [e]; rfl
  have hyl : lim → y.blocking.var < m.vars := fun hl => h.lv hl _ hy _ (by rw [e, hb]; simp)
  unfold Mem.replace Mem.replaceWith
  have p1 : m.pointer (y.cref + Buf.headerLen + 2) = .ok (y.cref + 3 + 2) := by
    unfold Mem.pointer; rw [if_pos (by unfold Buf.headerLen; omega)]; rfl
  have p2 : m.pointer (y.cref + Buf.headerLen + (s.lits y.cref).length) = .ok (y.cref + 3 + (s.lits y.cref).length) := by
    unfold Mem.pointer; rw [if_pos (by unfold Buf.headerLen; omega)]; rfl
  have p3 : m.checkBounds y.cref (s.lits y.cref).length = .ok () := by
    unfold Mem.checkBounds; rw [if_pos (by unfold Buf.headerLen; omega)]
  simp only [p1, p2, p3, bind, Except.bind, pure, Except.pure]
  rcases search_ok h hy lit.neg cs [first, second] (by rw [e]; rfl) with ⟨k1, k2⟩ | ⟨k1, k2⟩ | ⟨j, l, k1, k2, k3⟩
  · simp only [List.length_cons, List.length_nil, Nat.zero_add, Nat.reduceAdd] at k1
    rw [k1]
    exact Or.inl ⟨rfl, fun hl => (k2 hl).elim⟩
  · simp only [List.length_cons, List.length_nil, Nat.zero_add, Nat.reduceAdd] at k1
    rw [k1, k2]
    obtain ⟨w1, h1⟩ := h.writeWatch (y := y) ⟨hy, hyl⟩
    simp only [w1]
    by_cases hv : y.blocking.var < m.vars
    · have hf := isFalse_ok h1 (l := y.blocking) hv
      rw [hf, hb]
      cases hfb : s.p.isFalse first with
      | true =>
        simp only [if_true]
        exact Round.conflict h1 rfl rfl (by simp)
      | false =>
        obtain ⟨w2, h2⟩ := h1.enqueue (l := y.blocking) (.long y.cref) hv
          (h.lit_code hy (j := 0) (by rw [e, hb]; rfl))
        rw [hb] at w2 h2
        simp only [w2, Bool.false_eq_true, if_false]
        exact Round.keep h2 rfl rfl (by simp)
    · rw [isFalse_panic (m := { m with watches := m.watches.modify lit.code (·.set wr y) }) hv]
      exact Or.inl ⟨rfl, fun hl => (hv (hyl hl)).elim⟩
  · simp only [List.length_cons, List.length_nil, Nat.zero_add, Nat.reduceAdd] at k1
    rw [k1, k3]
    have hj := (List.getElem?_eq_some_iff.1 k2).1
    have hjl : (s.lits y.cref)[j + 2]? = some l := by rw [e]; simpa using k2
    obtain ⟨w1, h1⟩ := h.write (c := y.cref) (j := 1) (l := l) hy (by omega) (h.lit_code hy hjl)
      (fun hl => h.lv hl _ hy _ (List.mem_of_getElem? hjl))
    obtain ⟨w2, h2⟩ := h1.write (c := y.cref) (j := 2 + j) (l := lit.neg) hy (by simp [put_same]; omega) (code_neg h.code.2)
      (fun hl => by rw [Lit.var_neg]; exact h.lit_var hl)
    have w1' : m.write (y.cref + Buf.headerLen + 1) l = _ := w1
    simp only [w1', w2]
    by_cases hne : l.neg = lit
    · simp only [hne, if_true]
      exact Or.inl ⟨rfl, fun _ => rfl⟩
    · simp only [hne, if_false]
      have hset : ((first :: second :: cs).set 1 l).set (2 + j) lit.neg = first :: l :: cs.set j lit.neg := by
        rw [Nat.add_comm 2 j]; rfl
      simp only [put_same, put_put, e, hset] at h2
      by_cases hcl : l.neg.code < m.watches.length
      · obtain ⟨w3, h3⟩ := h2.addWatch (l := l.neg) (x := y) hne hcl ⟨hy, hyl⟩
        simp only [w3]
        exact Round.moved h3.skip rfl rfl (by simp)
      · refine Or.inl ⟨?_, fun hl => ?_⟩
        · unfold Mem.addWatch
          rw [if_neg hcl]
        · exfalso
          have a1 := h.lv hl _ hy _ (List.mem_of_getElem? hjl)
          have a2 := h.wlim hl
          have a3 : l.neg.var = l.var := Lit.var_neg l
          unfold Lit.var at a1 a3
          omega

theorem step_ok {x : Watch} (h : Rel lim W D lit m s kept (x :: rest) rd wr) :
    Round lim W D lit m.vars m.watches.length kept rest rd wr (m.step lit rd wr) (longStep lit x s) := by
  obtain ⟨hx, hxl⟩ := h.wr x (by simp)
  unfold Mem.step longStep
  simp only [h.readWatch, bind, Except.bind, pure, Except.pure]
  by_cases hv : x.blocking.var < m.vars
  · rw [isTrue_ok h hv]
    cases hbt : s.p.isTrue x.blocking with
    | true =>
      obtain ⟨w1, h1⟩ := h.writeWatch (y := x) ⟨hx, hxl⟩
      simp only [w1, if_true]
      exact Round.keep h1 rfl rfl (by simp)
    | false =>
      simp only [Bool.false_eq_true, if_false]
      have hin := h.st.inside _ hx
      have h2 := h.st.two _ hx
      by_cases h3 : x.cref + Buf.headerLen + 3 ≤ m.words.length
      · have b1 : m.checkBounds x.cref 3 = .ok () := by unfold Mem.checkBounds; rw [if_pos h3]
        have b2 : m.pointer (x.cref + Buf.headerLen) = .ok (x.cref + 3) := by
          unfold Mem.pointer; rw [if_pos (by omega)]; rfl
        have b3 : m.headerLen x.cref = .ok (s.lits x.cref).length := by
          unfold Mem.headerLen; rw [if_pos (by omega), head_len, h.st.head _ hx]
        match e : s.lits x.cref, h2 with
        | c0 :: c1 :: cs, _ =>
          obtain ⟨ws, f1, f2, f3⟩ := front_ok h hx e
          rw [b1]; simp only
          rw [b2]; simp only
          rw [b3]; simp only
          rw [f1]; simp only
          generalize hfi : (if c0 = lit.neg then c1 else c0) = first at *
          generalize hse : (if c0 = lit.neg then lit.neg else c1) = second at *
          have hrep := replace_ok f3 (y := ⟨x.cref, first⟩) (first := first) (second := second) (cs := cs) hx (by simp [put_same]) rfl
          simp only [put_same, put_put, List.length_cons] at hrep
          have hlen : (s.lits x.cref).length = cs.length + 1 + 1 := by rw [e]; rfl
          rw [hlen]
          by_cases hb : first = x.blocking
          · rw [if_pos hb, if_neg (fun k => k.1 hb)]
            simp only [Bool.false_eq_true, if_false, put_put]
            exact hrep
          · simp only [hb, if_false, ne_eq, not_false_eq_true, true_and]
            by_cases hfv : first.var < m.vars
            · rw [isTrue_ok f3 (l := first) hfv]
              cases hft : s.p.isTrue first with
              | true =>
                obtain ⟨w1, h1⟩ := f3.writeWatch (y := ⟨x.cref, first⟩) ⟨hx, fun _ => hfv⟩
                simp only [w1, if_true]
                exact Round.keep h1 rfl rfl (by simp)
              | false =>
                simp only [Bool.false_eq_true, if_false, put_put]
                exact hrep
            · rw [isTrue_panic (m := { m with words := ws }) hfv]
              refine Or.inl ⟨rfl, fun hl => (hfv (f3.lv hl x.cref hx _ ?_)).elim⟩
              simp [put_same]
      · have b1 : m.checkBounds x.cref 3 = .error .panic := by unfold Mem.checkBounds; rw [if_neg h3]
        rw [b1]
        refine Or.inl ⟨rfl, fun hl => ?_⟩
        have := h.c3 hl _ hx
        unfold Buf.headerLen at h3; omega
  · rw [isTrue_panic hv]
    exact Or.inl ⟨rfl, fun hl => (hv (hxl hl)).elim⟩

/-- The memory between the calls of `propagate_long`. -/
structure Of (lim : Prop) (W : List Word) (D : Nat → Prop) (m : Mem) (s : Ps) : Prop where
  p : m.p = s.p
  st : Stored W D s.lits m.words
  wlim : lim → m.watches.length = 2 * m.vars
  c3 : lim → ∀ c, D c → 3 ≤ (s.lits c).length
  lv : lim → ∀ c, D c → ∀ l ∈ s.lits c, l.var < m.vars
  tr : LOk lim m.vars m.p.trail
  other : ∀ l : Lit, l.code < m.watches.length → m.watches.getD l.code [] = s.watches l
  oth : ∀ l : Lit, l.code < m.watches.length → WOk lim D m.vars (s.watches l)

theorem Of.rel (h : Of lim W D m s) (h1 : lit.code < m.watches.length) (h2 : lit.code < 2 ^ 32) :
    Rel lim W D lit m s [] (s.watches lit) 0 0 := by
  refine ⟨h.p, h.st, h.wlim, h.c3, h.lv, h.tr, fun l _ => h.other l, fun l _ => h.oth l, by simp, ?_, by simp, by simp [WOk],
    h.oth lit h1, h1, h2⟩
  rw [h.other lit h1]; simp

/-- The end of the loop. -/
theorem Rel.truncate (h : Rel lim W D lit m s kept [] rd wr) :
    ∃ m', m.truncate lit wr = .ok m' ∧ m'.vars = m.vars ∧ m'.watches.length = m.watches.length ∧
      Of lim W D m' { s with watches := put s.watches lit kept } := by
  refine ⟨{ m with watches := m.watches.modify lit.code (·.take wr) }, by unfold Mem.truncate; rw [if_pos h.code.1], rfl,
    by simp, ?_⟩
  refine ⟨h.p, h.st, ?_, h.c3, h.lv, h.tr, ?_, ?_⟩
  · intro hl; simpa using h.wlim hl
  · intro l hl
    simp only [List.length_modify] at hl
    show (m.watches.modify lit.code (·.take wr)).getD l.code [] = put s.watches lit kept l
    by_cases e : l = lit
    · subst e; rw [put_same, getD_modify _ _ _ hl]; exact h.take
    · rw [put_ne _ _ e, getD_modify_ne _ _ _ _ (code_ne e)]; exact h.other l e hl
  · intro l hl
    simp only [List.length_modify] at hl
    show WOk lim D m.vars (put s.watches lit kept l)
    by_cases e : l = lit
    · subst e; rw [put_same]; exact h.wk
    · rw [put_ne _ _ e]; exact h.oth l e hl

theorem move_ok : ∀ (rest kept : List Watch) (rd wr : Nat) (m : Mem), Rel lim W D lit m s kept rest rd wr →
    ∃ m' rd' wr', Mem.move lit rest.length rd wr m = .ok (m', wr') ∧ m'.vars = m.vars ∧ m'.watches.length = m.watches.length ∧
      Rel lim W D lit m' s (kept ++ rest) [] rd' wr'
  | [], kept, rd, wr, m, h => ⟨m, rd, wr, rfl, rfl, rfl, by simpa using h⟩
  | x :: rest, kept, rd, wr, m, h => by
    obtain ⟨w1, h1⟩ := h.writeWatch (y := x) (h.wr x (by simp))
    obtain ⟨m', rd', wr', i1, i2, i3, i4⟩ := move_ok rest _ _ _ _ h1
    refine ⟨m', rd', wr', ?_, i2, by simpa using i3, by simpa using i4⟩
    simp only [List.length_cons, Mem.move, h.readWatch, w1, bind, Except.bind]
    exact i1

/-- The result of a computation, compared to that of the abstract one. -/
def Agree (lim : Prop) (W : List Word) (D : Nat → Prop) (vars n : Nat) (r : Except Fault (Mem × Option Conflict))
    (a : Option (Ps × Option Conflict)) : Prop :=
  (r = .error .panic ∧ (lim → a = none)) ∨
  ∃ m' s' o, r = .ok (m', o) ∧ a = some (s', o) ∧ m'.vars = vars ∧ m'.watches.length = n ∧ Of lim W D m' s'

theorem loop_ok : ∀ (rest kept : List Watch) (rd wr : Nat) (m : Mem) (s : Ps), Rel lim W D lit m s kept rest rd wr →
    Agree lim W D m.vars m.watches.length (Mem.loop lit rest.length rd wr m) (longLoop lit rest kept s)
  | [], kept, rd, wr, m, s, h => by
    obtain ⟨m', t1, t2, t3, t4⟩ := h.truncate
    refine Or.inr ⟨m', _, none, ?_, rfl, t2, t3, t4⟩
    simp only [List.length_nil, Mem.loop, t1, bind, Except.bind, pure, Except.pure]
  | x :: rest, kept, rd, wr, m, s, h => by
    simp only [List.length_cons, Mem.loop, longLoop, bind, Except.bind, pure, Except.pure]
    rcases step_ok h with ⟨h1, h2⟩ | ⟨m', s', k, h1, h2, h3, h4⟩
    · rw [h1]
      exact Or.inl ⟨rfl, fun hl => by rw [h2 hl]⟩
    · rw [h1]
      cases k with
      | keep y =>
        obtain ⟨h4, h5⟩ := h4
        rw [h4]
        have := loop_ok rest _ _ _ m' s' h5
        rw [h2, h3] at this
        exact this
      | moved =>
        obtain ⟨h4, h5⟩ := h4
        rw [h4]
        have := loop_ok rest _ _ _ m' s' h5
        rw [h2, h3] at this
        exact this
      | conflict y =>
        obtain ⟨h4, h5⟩ := h4
        obtain ⟨m2, rd', wr', i1, i2, i3, i4⟩ := move_ok rest _ _ _ _ h5
        obtain ⟨m3, t1, t2, t3, t4⟩ := i4.truncate
        rw [h4]
        simp only [i1, t1]
        exact Or.inr ⟨m3, _, _, rfl, rfl, by rw [t2, i2, h2], by rw [t3, i3, h3], t4⟩

theorem propLong_ok (h : Of lim W D m s) (h1 : lit.code < m.watches.length) (h2 : lit.code < 2 ^ 32) :
    Agree lim W D m.vars m.watches.length (m.propLong lit) (propLong lit s) := by
  have := loop_ok _ _ _ _ _ _ (h.rel h1 h2)
  unfold Mem.propLong Solver.propLong
  rw [List.getElem?_eq_getElem h1]
  have e := h.other lit h1
  rw [List.getD_eq_getElem?_getD, List.getElem?_eq_getElem h1] at e
  simp only [Option.getD_some] at e
  simp only [e]
  exact this

theorem Of.setP (h : Of lim W D m s) {p : Pt} (hp : LOk lim m.vars p.trail) : Of lim W D { m with p := p } { s with p := p } :=
  ⟨rfl, h.st, h.wlim, h.c3, h.lv, hp, h.other, h.oth⟩

theorem binLoop_ok : ∀ (ls : List Lit) (m : Mem) (s : Ps), Of lim W D m s → LOk lim m.vars ls →
    (Mem.binLoop lit ls m = .error .panic ∧ ¬ lim) ∨
    ∃ m', Mem.binLoop lit ls m = .ok (m', (propBinary lit ls s.p).2) ∧ m'.vars = m.vars ∧ m'.watches.length = m.watches.length ∧
      Of lim W D m' { s with p := (propBinary lit ls s.p).1 }
  | [], m, s, h, _ => Or.inr ⟨m, rfl, rfl, rfl, h⟩
  | l :: ls, m, s, h, hl => by
    obtain ⟨hl1, hl2⟩ := hl l (by simp)
    unfold Mem.binLoop propBinary
    simp only [bind, Except.bind, pure, Except.pure]
    by_cases hv : l.var < m.vars
    · have f1 : m.isFalse l = .ok (s.p.isFalse l) := by unfold Mem.isFalse; rw [if_pos hv, h.p]
      have f2 : m.isTrue l = .ok (s.p.isTrue l) := by unfold Mem.isTrue; rw [if_pos hv, h.p]
      simp only [f1, f2]
      cases s.p.isFalse l with
      | true => exact Or.inr ⟨m, rfl, rfl, rfl, h⟩
      | false =>
        cases s.p.isTrue l with
        | true => exact binLoop_ok ls m s h (fun k hk => hl k (by simp [hk]))
        | false =>
          have e1 : m.enqueue l (.binary lit.neg) = .ok { m with p := s.p.enqueue l (.binary lit.neg) } := by
            unfold Mem.enqueue; rw [if_pos hv, h.p]
          simp only [e1, Bool.false_eq_true, if_false]
          refine binLoop_ok ls { m with p := s.p.enqueue l (.binary lit.neg) } { s with p := s.p.enqueue l (.binary lit.neg) }
            (h.setP ?_) (fun k hk => hl k (by simp [hk]))
          intro k hk
          rcases List.mem_append.1 hk with hk | hk
          · rw [← h.p] at hk; exact h.tr k hk
          · simp only [List.mem_singleton] at hk; subst hk; exact ⟨hl1, hl2⟩
    · have f1 : m.isFalse l = .error .panic := isFalse_panic hv
      rw [f1]
      exact Or.inl ⟨rfl, fun k => hv (hl2 k)⟩

/-- The lists of binary clauses. -/
structure BinOf (lim : Prop) (vars : Nat) (bins : List (List Lit)) (bin : Lit → List Lit) : Prop where
  blim : lim → bins.length = 2 * vars
  same : ∀ l : Lit, l.code < bins.length → bins.getD l.code [] = bin l
  ok : ∀ l : Lit, l.code < bins.length → LOk lim vars (bin l)

theorem propLoop_ok {bins : List (List Lit)} {bin : Lit → List Lit} : ∀ (n : Nat) (m : Mem) (s : Ps), Of lim W D m s →
    BinOf lim m.vars bins bin →
    (Mem.propLoop bins n m = .error .panic ∧ (lim → Solver.propLoop bin n s = .error .panic)) ∨
    (Mem.propLoop bins n m = .error .fuel ∧ Solver.propLoop bin n s = .error .fuel) ∨
    ∃ m' s' o, Mem.propLoop bins n m = .ok (m', o) ∧ Solver.propLoop bin n s = .ok (s', o) ∧ m'.vars = m.vars ∧ Of lim W D m' s'
  | 0, m, s, h, hb => Or.inr (Or.inl ⟨rfl, rfl⟩)
  | n + 1, m, s, h, hb => by
    unfold Mem.propLoop Solver.propLoop
    simp only [← h.p]
    cases ht : m.p.trail[m.p.qhead]? with
    | none => exact Or.inr (Or.inr ⟨m, s, none, rfl, rfl, rfl, h⟩)
    | some lit =>
      obtain ⟨h32, hlv⟩ := h.tr lit (List.mem_of_getElem? ht)
      by_cases hbl : lit.code < bins.length
      · have e := hb.same lit hbl
        rw [List.getD_eq_getElem?_getD, List.getElem?_eq_getElem hbl] at e
        simp only [Option.getD_some] at e
        simp only [List.getElem?_eq_getElem hbl, e, bind, Except.bind, pure, Except.pure]
        have h0 : Of lim W D { m with p := { m.p with qhead := m.p.qhead + 1 } } { s with p := { m.p with qhead := m.p.qhead + 1 } } :=
          h.setP h.tr
        rcases binLoop_ok (lit := lit) (bin lit) _ _ h0 (hb.ok lit hbl) with ⟨b1, b2⟩ | ⟨m1, b1, b2, b3, b4⟩
        · rw [b1]; exact Or.inl ⟨rfl, fun hl => (b2 hl).elim⟩
        · rw [b1]
          simp only at b4 ⊢
          cases ho : (propBinary lit (bin lit) { m.p with qhead := m.p.qhead + 1 }).2 with
          | some c => exact Or.inr (Or.inr ⟨m1, _, _, rfl, rfl, b2, b4⟩)
          | none =>
            simp only
            by_cases hwl : lit.code < m1.watches.length
            · rcases propLong_ok b4 hwl h32 with ⟨l1, l2⟩ | ⟨m2, s2, o, l1, l2, l3, l4, l5⟩
              · rw [l1]
                exact Or.inl ⟨rfl, fun hl => by rw [l2 hl]⟩
              · rw [l1, l2]
                cases o with
                | some c => exact Or.inr (Or.inr ⟨m2, s2, _, rfl, rfl, by rw [l3, b2], l5⟩)
                | none =>
                  have := propLoop_ok n m2 s2 l5 (by rw [l3, b2]; exact hb)
                  rw [l3, b2] at this
                  exact this
            · refine Or.inl ⟨?_, fun hl => ?_⟩
              · unfold Mem.propLong
                rw [List.getElem?_eq_none (by omega)]
              · exfalso
                have a1 := b4.wlim hl
                have a2 := hlv hl
                have : m1.vars = m.vars := b2
                unfold Lit.var at a2
                omega
      · refine Or.inl ⟨?_, fun hl => ?_⟩
        · simp only; rw [List.getElem?_eq_none (by omega)]
        · exfalso
          have a1 := hb.blim hl
          have a2 := hlv hl
          unfold Lit.var at a2
          omega

/-- The search of a round ends within the clause. -/
theorem Mem.search_noub (m : Mem) (i stop : Nat) (h : i ≤ stop) (hs : stop ≤ m.words.length) :
    m.search i stop ≠ .error .ub ∧ ∀ j l, m.search i stop = .ok (some (j, l)) → j < m.words.length := by
  induction i using Mem.search.induct (m := m) (stop := stop) with
  | case1 => rw [Mem.search]; simp
  | case2 i h1 h2 =>
    simp only [List.getElem?_eq_none_iff] at h2
    omega
  | case3 i h1 w h2 e h3 =>
    rw [Mem.search]
    have : e = .panic := by
      unfold Mem.isFalse at h3
      split at h3 <;> simp_all
    subst this
    rw [if_neg h1]
    split <;> simp_all
  | case4 i h1 w h2 h3 =>
    rw [Mem.search, if_neg h1]
    have := (List.getElem?_eq_some_iff.1 h2).1
    split <;> simp_all
  | case5 i h1 w h2 h3 ih =>
    rw [Mem.search, if_neg h1]
    have := ih (by omega)
    split <;> simp_all

end Varisat.Solver.Raw
