import Verif.Proof.CheckerView
/-! The checker accepts the steps its view says it accepts, and the view says what they do. -/
namespace Varisat.Checker

theorem wp_emit_ok {env : Env} (ha : Accepting env) (st : CheckedStep) (s : St)
    (ht : env.hasTranscript = true → transcriptStep s st ≠ none) : wp (emit env st) (fun _ _ => True) (fun _ _ => False) s := by
  obtain ⟨s', h'⟩ := emit_ok (env := env) (st := st) (s := s) ha ht
  unfold wp
  rw [h']; trivial

/-- Acceptance together with the effect. -/
theorem wp_run {α : Type} {m : CM α} {s : St} {Q : α → St → Prop} {E : Err → St → Prop}
    (h : wp m (fun _ _ => True) (fun _ _ => False) s) (h' : wp m Q E s) (hk : Keeps m) :
    ∃ a s', m s = .ok a s' ∧ Q a s' ∧ Keep s s' := by
  unfold wp at h h'
  cases hm : m s with
  | ok a s' => rw [hm] at h'; exact ⟨a, s', rfl, h', hk.ok hm⟩
  | error e s' => rw [hm] at h; exact h.elim

theorem ensureSampling_ok : ∀ (ls : List Lit) (s : St), (∀ l ∈ ls, s.mode l.var = .sample) →
    wp (ensureSamplingVars ls) (fun _ _ => True) (fun _ _ => False) s
  | [], _, _ => trivial
  | l :: ls, s, h => by
    unfold ensureSamplingVars ensureSamplingVar
    rw [wp_bind, wp_bind, wp_modify, wp_bind, wp_get]
    have hm : ∀ v, (ensureVar v s).mode = s.mode := fun v => (kp_ensureVar v s).mode
    rw [if_neg (by rw [hm]; simp [h l (by simp)]), wp_pure]
    exact ensureSampling_ok ls _ (fun m hm' => by rw [hm]; exact h m (by simp [hm']))

theorem lt_ensureVar (v : Nat) (K : St) : max K.nvars (v + 1) ≤ (ensureVar v K).nvars := by
  unfold ensureVar
  split
  · simp only; omega
  · omega

theorem ensureSampling_spell : ∀ (ls : List Lit) (s : St), (∀ l ∈ ls, s.mode l.var = .sample) →
    wp (ensureSamplingVars ls) (fun _ s' => Spell s' ls) (fun _ _ => False) s
  | [], _, _ => fun l hl => by cases hl
  | l :: ls, s, h => by
    unfold ensureSamplingVars ensureSamplingVar
    rw [wp_bind, wp_bind, wp_modify, wp_bind, wp_get]
    have hm : ∀ v, (ensureVar v s).mode = s.mode := fun v => (kp_ensureVar v s).mode
    rw [if_neg (by rw [hm]; simp [h l (by simp)]), wp_pure]
    refine wp_mono (wp_keep (ensureSampling_spell ls (ensureVar l.var s) (fun m hm' => by rw [hm]; exact h m (by simp [hm'])))
      (keep_samplings ls)) ?_ (fun _ _ h => h)
    rintro _ s' ⟨h1, h2⟩ m hm'
    rcases List.mem_cons.1 hm' with rfl | hm'
    · have hv := lt_ensureVar m.var s
      have := h2.nvars
      unfold userFromProofVar
      rw [if_pos (by omega), h2.mode, hm, h m (by simp)]
      cases s'.userVar m.var <;> rfl
    · exact h1 m hm'

theorem storeClause_ok {s : St} (hp : Pre s) {k : List Lit} (h1 : SSorted k) (h2 : ∀ l ∈ k, l.neg ∉ k) (red : Bool) :
    wp (storeClause k red) (fun x s' => Stored k red s s' x.1 x.2) (fun _ _ => False) s := by
  refine wp_mono (store_eff hp k h1 h2 red) ?_ (fun _ _ h => h)
  rintro ⟨a, b⟩ s' h
  exact h

/-- The parts of a view that a clause step leaves alone. -/
theorem Sees.of {K K' : St} {V W : View} (h : Sees K V) (hc : SeesC K' W) (hk : Keep K K')
    (hv : W.nvars = V.nvars ∧ W.user = V.user ∧ W.used = V.used ∧ W.mode = V.mode ∧ W.names = V.names ∧
      W.asm = V.asm)
    (has : K'.assumptions = K.assumptions) (hp : W.prev = K'.prevId.map (fun _ => K'.prevLits)) : Sees K' W :=
  ⟨hc, (h.v.keep hk).congr hv.1 hv.2.1 hv.2.2.1 hv.2.2.2.1 hv.2.2.2.2.1, by rw [has, h.asm, hv.2.2.2.2.2],
    by rw [has]; exact h.sorted, hp⟩

theorem Sees.quiet {K K' : St} {V : View} {o} (h : Sees K V) (hq : Quiet K o K') (hk : Keep K K') : Sees K' V :=
  h.of (h.c.same hq.toSame) hk ⟨rfl, rfl, rfl, rfl, rfl, rfl⟩ hq.assumptions
    (by rw [hq.prevId, hq.prevLits]; exact h.prev)

theorem View.store_same (V : View) (red : Bool) (k : List Lit) :
    (V.store red k).nvars = V.nvars ∧ (V.store red k).user = V.user ∧ (V.store red k).used = V.used ∧
    (V.store red k).mode = V.mode ∧ (V.store red k).names = V.names ∧ (V.store red k).asm = V.asm := by
  obtain ⟨h1, h2, h3, h4, h5, h6, _⟩ := V.store_vars red k
  exact ⟨h1, h2, h3, h4, h5, h6⟩

theorem AddEff.prevId {c s s'} (h : AddEff c s s') : s'.prevId = s.prevId := by
  cases h with
  | skipped _ h => rw [h]
  | taut s1 _ _ hq hb => rw [hb.prevId, hq.prevId]
  | new s0 s1 id _ _ hq hst hq1 => rw [hq1.prevId, hst.prevId, hq.prevId]
  | irred s0 s1 s2 id _ _ hq hst hq1 hb => rw [hb.prevId, hq1.prevId, hst.prevId, hq.prevId]
  | dup s0 s1 s2 id _ _ hq hst hq1 hb => rw [hb.prevId, hq1.prevId, hst.prevId, hq.prevId]

section
variable {env : Env} (ha : Accepting env)
include ha

theorem addClause_accept {K : St} {V : View} (h : Sees K V) {c : List Lit} (hacc : V.Acc (.addClause c))
    (htr : env.hasTranscript = true → V.Tr (.addClause c)) :
    ∃ K', addClause env c K = .ok () K' ∧ Sees K' (V.step (.addClause c)) := by
  have hok : wp (addClause env c) (fun _ _ => True) (fun _ _ => False) K := by
    unfold addClause
    rw [wp_bind, wp_get]
    split
    · trivial
    · rename_i hu
      have hem := fun st s => wp_emit_ok ha (env := env) st s
      have htt : (copyCanonical c).2 = true → env.hasTranscript = true → Spell K (copyCanonical c).1 := by
        intro ht he
        rcases htr he with h' | h' | h'
        · rw [h.c.unsat] at hu; exact absurd h' hu
        · rw [ht] at h'; cases h'
        · exact fun l hl => h.v.spell h' l (mem_canonical.1 hl)
      have hsrt := canonical_ssorted c
      have hnt : (copyCanonical c).2 = false → ∀ l ∈ (copyCanonical c).1, l.neg ∉ (copyCanonical c).1 :=
        canonical_notaut
      have hm : (copyCanonical c).2 = false → ∀ l ∈ (copyCanonical c).1, K.mode l.var = .sample := by
        intro ht
        rcases hacc with hacc | hacc | hacc
        · rw [h.c.unsat] at hu; exact absurd hacc hu
        · rw [ht] at hacc; exact absurd hacc (by simp)
        · intro l hl; rw [h.v.mode]; exact hacc l (mem_canonical.1 hl)
      generalize copyCanonical c = cc at hsrt hnt hm htt
      obtain ⟨tmp, taut⟩ := cc
      simp only at hsrt hnt hm htt ⊢
      split
      · rename_i ht
        rw [wp_bind]
        exact wp_mono (hem _ _ fun he => by simpa [transcriptStep] using (htt ht he).map) (fun _ _ _ => trivial) (fun _ _ h => h)
      · rename_i ht
        have ht : taut = false := by simpa using ht
        rw [wp_bind]
        refine wp_mono (wp_and (ensureSampling_spell _ K (hm ht)) (wp_ensureSamplingVars _ h.c.pre.wf)) ?_ (fun _ _ h => h.1)
        rintro _ s1 ⟨hsp, hq⟩
        rw [wp_bind]
        refine wp_mono (wp_keep (storeClause_ok (hq.toSame.pre h.c.pre) hsrt (hnt ht) false) (keep_store _ _)) ?_ (fun _ _ h => h)
        rintro ⟨id, res⟩ s2 ⟨-, hk⟩
        have hsp := hsp.keep hk
        cases res with
        | new => exact hem _ _ fun _ => by simpa [transcriptStep] using hsp.map
        | newlyIrredundant =>
          simp only
          rw [wp_bind]
          refine wp_mono (wp_keep (hem _ _ fun _ => by simp [transcriptStep]) (keep_emit env _)) (fun _ s3 hs3 => ?_) (fun _ _ h => h)
          rw [wp_bind, wp_get, wp_bind]
          exact wp_mono (hem _ _ fun _ => by simpa [transcriptStep] using (hsp.keep hs3.2).map) (fun _ _ _ => trivial) (fun _ _ h => h)
        | duplicate =>
          simp only
          rw [wp_bind, wp_get, wp_bind]
          exact wp_mono (hem _ _ fun _ => by simpa [transcriptStep] using hsp.map) (fun _ _ _ => trivial) (fun _ _ h => h)
  obtain ⟨_, K', e, he, hk⟩ := wp_run hok (addClause_eff env h.c.pre c) (keep_addClause env c)
  refine ⟨K', e, ?_⟩
  have hpv : K'.prevId.map (fun _ => K'.prevLits) = K.prevId.map (fun _ => K.prevLits) := by
    rw [he.prevId, he.prevLits]
  unfold View.step
  dsimp only
  cases hE : he with
  | skipped hu hs =>
    rw [if_pos (Or.inl (by rw [← h.c.unsat]; exact hu)), hs]
    exact h
  | taut s1 hu ht hq hb =>
    rw [if_pos (Or.inr ht)]
    exact h.of ((h.c.same hq.toSame).bump hb) hk ⟨rfl, rfl, rfl, rfl, rfl, rfl⟩ he.asm (by rw [hpv]; exact h.prev)
  | new s0 s1 id hu ht hq hst hq1 =>
    rw [if_neg (by rw [← h.c.unsat, hu, ht]; simp)]
    exact h.of (((h.c.same hq.toSame).stored hst).same hq1.toSame) hk (V.store_same _ _) he.asm
      (by rw [hpv, (V.store_vars _ _).2.2.2.2.2.2]; exact h.prev)
  | irred s0 s1 s2 id hu ht hq hst hq1 hb =>
    rw [if_neg (by rw [← h.c.unsat, hu, ht]; simp)]
    exact h.of ((((h.c.same hq.toSame).stored hst).same hq1.toSame).bump hb) hk (V.store_same _ _) he.asm
      (by rw [hpv, (V.store_vars _ _).2.2.2.2.2.2]; exact h.prev)
  | dup s0 s1 s2 id hu ht hq hst hq1 hb =>
    rw [if_neg (by rw [← h.c.unsat, hu, ht]; simp)]
    exact h.of ((((h.c.same hq.toSame).stored hst).same hq1.toSame).bump hb) hk (V.store_same _ _) he.asm
      (by rw [hpv, (V.store_vars _ _).2.2.2.2.2.2]; exact h.prev)
end

/-! ### Hashes -/

theorem applyNames_removed : ∀ {b : List (Nat × Option Nat)} {names : Nat → Option Nat}, (∀ x ∈ b, x.2 = none) →
    ∀ {v : Nat}, (applyNames b names v).isSome → applyNames b names v = names v := by
  intro b
  induction b with
  | nil => intros; rfl
  | cons x b ih =>
    intro names hb v hv
    obtain ⟨g, y⟩ := x
    have hy : y = none := hb (g, y) (by simp)
    subst hy
    unfold applyNames at hv ⊢
    have h1 := ih (names := upd names g none) (fun x hx => hb x (by simp [hx])) hv
    rw [h1] at hv ⊢
    unfold upd at hv ⊢
    split at hv
    · simp at hv
    · rw [if_neg (by assumption)]

theorem hashOf_congr {bits : Nat} {n n' : Nat → Option Nat} {d : List Lit} (h : ∀ l ∈ d, n l.var = n' l.var) :
    hashOf bits n d = hashOf bits n' d := by
  unfold hashOf
  have key : ∀ (ls : List Lit) (x : Nat), (∀ l ∈ ls, n l.var = n' l.var) →
      ls.foldl (fun h l => match n l.var with
        | some v => h ^^^ litHash (Lit.mk' v (!l.isNeg))
        | none => h ^^^ litCodeHash (l.code + maxVarCount * 2)) x =
      ls.foldl (fun h l => match n' l.var with
        | some v => h ^^^ litHash (Lit.mk' v (!l.isNeg))
        | none => h ^^^ litCodeHash (l.code + maxVarCount * 2)) x := by
    intro ls
    induction ls with
    | nil => intros; rfl
    | cons l ls ih =>
      intro x hx
      simp only [List.foldl_cons]
      rw [hx l (by simp)]
      exact ih _ (fun m hm => hx m (by simp [hm]))
  exact congrArg (fun x => x >>> ((2 ^ 32 + 64 - bits) % 64)) (key d 0 h)

theorem hashOf_bits {bits : Nat} (h1 : 1 ≤ bits) (h2 : bits ≤ 64) (n : Nat → Option Nat) (d : List Lit) :
    hashOf bits n d = hashOf 64 n d >>> (64 - bits) := by
  unfold hashOf
  simp only
  rw [show (2 ^ 32 + 64 - bits) % 64 = 64 - bits by omega, show (2 ^ 32 + 64 - 64) % 64 = 0 by decide, Nat.shiftRight_zero]

theorem Sees.lookup {K : St} {V : View} (h : Sees K V) (h1 : 1 ≤ K.hashBits) (h2 : K.hashBits ≤ 64) {d : List Lit}
    (hd : V.Named d) : lookupHash K d = hashOf 64 V.names d >>> (64 - K.hashBits) := by
  unfold lookupHash
  rw [← hashOf_bits h1 h2]
  refine hashOf_congr fun l hl => ?_
  have hs := hd l hl
  rw [← h.v.names] at hs ⊢
  split
  · rfl
  · rename_i hr
    rw [applyNames_removed (h.v.buf (by simpa using hr)) hs]

theorem SeesC.true_iff {K : St} {V : View} (h : SeesC K V) (l : Lit) : IsTrue K.units l ↔ V.True l := by
  unfold IsTrue View.True
  rw [← h.unit]
  constructor
  · rintro ⟨u, h1, h2⟩; rw [h1, ← h2]; rfl
  · intro h'
    cases hu : K.units l.var with
    | none => rw [hu] at h'; simp at h'
    | some u => rw [hu] at h'; exact ⟨u, rfl, by simpa using h'⟩

theorem SeesC.stores {K : St} {V : View} (h : SeesC K V) {d : List Lit} (hd : V.Has d) : Stores K d := by
  obtain ⟨hok, red, hpos⟩ := hd
  rw [stores_iff]
  by_contra hne
  push Not at hne
  have : wt red d (ents K.buffer K.clauses) = 0 := by
    unfold wt
    generalize ents K.buffer K.clauses = es at hne
    induction es with
    | nil => rfl
    | cons e es ih =>
      rw [List.map_cons, List.sum_cons, ih fun e he => hne e (List.mem_cons_of_mem _ he)]
      unfold wt1
      rw [if_neg (hne e (List.mem_cons_self ..))]; rfl
  have h2 := h.cnt red d hok
  omega

/-- Every held clause is counted. -/
theorem SeesC.counted {K : St} {V : View} (h : SeesC K V) {e : Entry} (he : e ∈ ents K.buffer K.clauses) :
    LitsOk e.lits ∧ ∃ red, 0 < V.cnt red e.lits := by
  obtain ⟨hok, hpos⟩ := h.pre.wf.ent e he
  refine ⟨hok, ?_⟩
  have h1 := wt_mem (red := true) he rfl
  have h2 := wt_mem (red := false) he rfl
  rw [h.cnt _ _ hok] at h1 h2
  simp only [if_true, Bool.false_eq_true, if_false] at h1 h2
  by_cases hr : 0 < e.red
  · exact ⟨true, by omega⟩
  · exact ⟨false, by omega⟩

/-- Hints of the view are hints of the state. -/
theorem Sees.hints {K : St} {V : View} (h : Sees K V) (h1 : 1 ≤ K.hashBits) (h2 : K.hashBits ≤ 64)
    {known : Lit → Prop} {hs : List Nat} (hh : V.Hints known hs) :
    ∃ cls, hs.map (· >>> (64 - K.hashBits)) = cls.map (lookupHash K) ∧ (∀ d ∈ cls, Stores K d) ∧
      UnitChain Lit.neg (fun l => known l ∨ IsTrue K.units l) cls := by
  obtain ⟨cls, e, hc, hch⟩ := hh
  refine ⟨cls, ?_, fun d hd => h.c.stores (hc d hd).2, by simpa only [h.c.true_iff] using hch⟩
  rw [e, List.map_map]
  exact List.map_congr_left fun d hd => (h.lookup h1 h2 (hc d hd).1).symm

section
variable {env : Env} (ha : Accepting env)
include ha

theorem at_accept {K : St} {V : View} (h : Sees K V) (h1 : 1 ≤ K.hashBits) (h2 : K.hashBits ≤ 64) {red : Bool}
    {c : List Lit} {hs : List Nat} (hacc : V.Acc (.atClause red c hs)) :
    ∃ K', checkAtClause env red c (hs.map (· >>> (64 - K.hashBits))) K = .ok () K' ∧
      Sees K' (V.step (.atClause red c hs)) := by
  have hok := at_complete env ha h.c.pre red c hacc.1 (hs.map (· >>> (64 - K.hashBits))) (by
    rcases hacc.2 with ⟨l, hl, ht⟩ | hh
    · exact Or.inl ⟨l, hl, (h.c.true_iff l).2 ht⟩
    · obtain ⟨cls, e, e1, e2⟩ := h.hints h1 h2 hh
      exact Or.inr ⟨cls, [], by simpa using e, e1, e2⟩)
  obtain ⟨_, K', e, he, hk⟩ := wp_run hok (at_eff env h.c.pre red c _) (keep_at env red c _)
  refine ⟨K', e, ?_⟩
  obtain ⟨s0, s1, s2, id, res, ids, hq, hr, -, hst, hs2, hq2⟩ := he.run
  have hc1 : SeesC s1 (V.store red (copyCanonical c).1) := (h.c.same hq.toSame).stored hst
  have has : K'.assumptions = K.assumptions := by
    rw [hq2.assumptions, hs2]
    have := hst.assumptions.trans hq.assumptions
    split <;> exact this
  unfold View.step
  dsimp only
  cases red with
  | true =>
    simp only [if_true] at hs2 ⊢
    subst hs2
    refine h.of (hc1.same hq2.toSame) hk (V.store_same _ _) has ?_
    rw [hq2.prevId, hq2.prevLits, hst.prevId, hst.prevLits, hq.prevId, hq.prevLits, (V.store_vars _ _).2.2.2.2.2.2]
    exact h.prev
  | false =>
    simp only [Bool.false_eq_true, if_false] at hs2 ⊢
    have hc2 : SeesC s2 (V.store false (copyCanonical c).1) := by
      rw [hs2]
      exact ⟨⟨hc1.pre.wf, hc1.pre.glob, hc1.pre.trail⟩, hc1.count, hc1.cnt, hc1.unit, hc1.unsat⟩
    refine h.of ((hc2.same hq2.toSame).congr rfl rfl rfl) hk (V.store_same _ _) has ?_
    rw [hq2.prevId, hq2.prevLits, hs2]
    rfl

end

end Varisat.Checker
