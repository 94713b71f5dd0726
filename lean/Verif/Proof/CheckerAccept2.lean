import Verif.Proof.CheckerAccept
/-! Accepted deletions, unit clauses, models, assumptions and variable steps. -/
namespace Varisat.Checker

theorem findSatisfied_of {s : St} (hg : ∀ v u, s.units v = some u → ∃ id, u.id = .global id) : ∀ {ls : List Lit},
    (∀ l ∈ ls, l.var < s.nvars) → (∃ l ∈ ls, IsTrue s.units l) → ∃ id, findSatisfied s ls = some (some id)
  | [], _, h => by obtain ⟨l, hl, _⟩ := h; simp at hl
  | l :: ls, hv, h => by
    unfold findSatisfied
    rw [if_neg (by have := hv l (by simp); omega)]
    split
    · exact ⟨_, rfl⟩
    · rename_i hne
      obtain ⟨m, hm, u, hu, hval⟩ := h
      rcases List.mem_cons.1 hm with rfl | hm
      · obtain ⟨id, hid⟩ := hg _ _ hu
        refine absurd ?_ (hne id u.value)
        unfold litValue
        rw [hu]
        obtain ⟨uid, uval⟩ := u
        simp only at hid hval
        subst hid hval
        cases m.isNeg <;> rfl
      · exact findSatisfied_of hg (fun x hx => hv x (by simp [hx])) ⟨m, hm, u, hu, hval⟩

theorem CountOk.del {s s1 : St} {c : List Lit} {red : Bool} {id : Nat} {r : DeleteResult} (h : CountOk s)
    (hd : DelEff red (copyCanonical c).1 (ents s.buffer s.clauses) (ents s1.buffer s1.clauses) id r)
    (hcc : s1.clauseCount = (if r = .removed then countDown (copyCanonical c).1 s.clauseCount else s.clauseCount)) :
    CountOk s1 := by
  intro l
  cases hd with
  | gone e R hl hpm hpos hz hpm' =>
    rw [hcc, if_pos rfl, countDown_spec (ssorted_nodup (canonical_ssorted c)), h l,
      hpm.countP_eq, hpm'.countP_eq, List.countP_cons, hl]
    by_cases hm : l ∈ (copyCanonical c).1 <;> simp [hm]
  | kept e R hl hpm hpos hz hpm' =>
    have hrr : ∀ x : DeleteResult, x = (if (!red && e.irred - (if red = true then 0 else 1) == 0) = true
        then .newlyRedundant else .unchanged) → x ≠ .removed := by
      intro x hx; subst hx; generalize (_ && _) = b; cases b <;> simp
    rw [if_neg (hrr _ rfl)] at hcc
    rw [hcc, h l, hpm.countP_eq, hpm'.countP_eq]
    simp only [List.countP_cons]

section
variable {env : Env} (ha : Accepting env)
include ha

theorem delete_accept {K : St} {V : View} (h : Sees K V) {c : List Lit} {p : DeleteProof}
    (hacc : V.Acc (.deleteClause c p)) :
    ∃ K', checkDeleteClause env c p K = .ok () K' ∧ Sees K' (V.step (.deleteClause c p)) := by
  obtain ⟨a1, a2, a3, a4⟩ := hacc
  have htf : (copyCanonical c).2 = false := by
    cases h : (copyCanonical c).2 with
    | false => rfl
    | true =>
      obtain ⟨l, h1, h2⟩ := (canonical_taut c).1 h
      exact absurd h2 (a1 l h1)
  have hlok : LitsOk (copyCanonical c).1 := ⟨canonical_ssorted c, a2, canonical_notaut htf⟩
  have hem := fun st s => wp_emit_ok ha (env := env) st s
  have hw := h.c.pre.wf
  have hjust : wp (justifyDelete (copyCanonical c).1 p) (fun r s' => s' = K ∧ (p ≠ .redundant → r.isSome = true))
      (fun _ _ => False) K := by
    unfold justifyDelete
    rw [wp_bind, wp_get]
    cases p with
    | redundant => exact ⟨rfl, fun h => absurd rfl h⟩
    | satisfied =>
      simp only at a4 ⊢
      obtain ⟨⟨l, hl, ht⟩, a5⟩ := a4
      obtain ⟨id, e⟩ := findSatisfied_of h.c.pre.glob (s := K) (ls := (copyCanonical c).1)
        (fun l hl => Nat.lt_of_lt_of_le (a5 l (mem_canonical.1 hl)) h.v.nvars)
        ⟨l, mem_canonical.2 hl, (h.c.true_iff l).2 ht⟩
      rw [e]
      exact ⟨rfl, fun _ => rfl⟩
    | simplified =>
      simp only at a4 ⊢
      obtain ⟨q, e, hq⟩ := a4
      rw [h.prev] at e
      cases hp : K.prevId with
      | none => rw [hp] at e; simp at e
      | some i =>
        rw [hp] at e
        simp only [Option.map_some, Option.some.injEq] at e
        rw [if_neg (by rw [e, hq]; simp)]
        exact ⟨rfl, fun _ => rfl⟩
  have hok : wp (checkDeleteClause env c p) (fun _ _ => True) (fun _ _ => False) K := by
    unfold checkDeleteClause
    simp only [htf, Bool.false_eq_true, if_false]
    rw [wp_bind]
    refine wp_mono hjust ?_ (fun _ _ h => h)
    rintro r s2 ⟨e0, hr⟩
    obtain rfl : K = s2 := e0.symm
    rw [wp_bind, wp_modify, wp_bind]
    have hspec := deleteClause_spec env (s := { K with
      prevId := none
      prevLits := [] }) hw (copyCanonical c).1 (decide (p = .redundant))
    have hpos := h.c.cnt (decide (p = .redundant)) _ hlok
    rcases hspec with ⟨h', -⟩ | ⟨hlen, ⟨m, -, hne, -⟩ | ⟨m, -, ⟨e', k1, k2, k3⟩, -⟩ | ⟨id, dr, m, b, g, cc, k, k1, k2, k3⟩⟩
    · omega
    · exfalso
      obtain ⟨e, e1, e2⟩ := stores_iff.1 (h.c.stores ⟨hlok, _, a3⟩)
      exact hne e e1 e2
    · exfalso
      -- the entry is unique, and its count is positive
      have hnd := hw.nodup
      have hz : wt (decide (p = .redundant)) (copyCanonical c).1 (ents K.buffer K.clauses) = 0 := by
        have k1' : e' ∈ ents K.buffer K.clauses := k1
        clear hpos
        unfold wt
        generalize decide (p = .redundant) = red at k3
        have : ∀ e ∈ ents K.buffer K.clauses, wt1 red (copyCanonical c).1 e = 0 := by
          intro e he
          unfold wt1
          split
          · rename_i hl
            have : e = e' := List.inj_on_of_nodup_map hnd he k1' (hl.trans k2.symm)
            subst this
            cases red <;> simp_all
          · rfl
        generalize ents K.buffer K.clauses = es at this
        clear k1' k1 hnd
        induction es with
        | nil => rfl
        | cons e es ih =>
          rw [List.map_cons, List.sum_cons, this e (by simp), ih fun e he => this e (by simp [he])]; rfl
      omega
    · unfold wp at *
      rw [k]
      simp only
      have hem' : ∀ st s, (env.hasTranscript = true → transcriptStep s st ≠ none) → wp (emit env st) (fun _ _ => True) (fun _ _ => False) s := hem
      by_cases hp : p = .redundant
      · subst hp
        simp only [decide_true, if_true]
        cases dr with
        | removed => exact hem' _ _ (fun _ => by simp [transcriptStep])
        | unchanged => trivial
        | newlyRedundant =>
          exfalso
          simp only [decide_true] at k2
          generalize hx : DeleteResult.newlyRedundant = x at k2
          cases k2 with
          | gone => simp at hx
          | kept => simp at hx
      · simp only [decide_eq_false hp, Bool.false_eq_true, if_false]
        have hrs := hr hp
        cases r with
        | none => simp at hrs
        | some sid =>
          cases dr with
          | unchanged => trivial
          | removed => exact hem' _ _ (fun _ => by simp [transcriptStep])
          | newlyRedundant => exact hem' _ _ (fun _ => by simp [transcriptStep])
  obtain ⟨_, K', e, he, hk⟩ := wp_run hok (delete_eff env h.c.pre c p) (keep_deleteClause env c p)
  refine ⟨K', e, ?_⟩
  obtain ⟨id, r, s1, o, hd, hw1, hu, hsat, hcf, hni, htr, has, hout, hpid, hpl, hcc, ho, hq⟩ := he.run
  have hc1 : SeesC s1 (V.step (.deleteClause c p)) := by
    refine ⟨⟨hw1, by rw [hu]; exact h.c.pre.glob, by rw [htr]; exact h.c.pre.trail⟩, h.c.count.del hd hcc, ?_,
      fun v => by rw [hu]; exact h.c.unit v, by rw [hsat]; exact h.c.unsat⟩
    intro red k hk
    rw [hd.wt, h.c.cnt red k hk]
    unfold View.step
    dsimp only
    split
    · rename_i hx
      obtain ⟨rfl, rfl⟩ := hx
      omega
    · simp
  refine h.of (hc1.same hq.toSame) hk ⟨rfl, rfl, rfl, rfl, rfl, rfl⟩ (by rw [hq.assumptions, has]) ?_
  rw [hq.prevId, hpid]
  rfl

theorem units_accept : ∀ (us : List (Lit × Nat)) {K : St} {V : View}, Sees K V → 1 ≤ K.hashBits → K.hashBits ≤ 64 →
    V.AccUnits us → ∃ K', checkUnitClauses env (us.map fun u => (u.1, u.2 >>> (64 - K.hashBits))) K = .ok () K' ∧
      Sees K' (V.step (.unitClauses us))
  | [], K, V, h, _, _, _ => ⟨K, rfl, h⟩
  | (l, hash) :: us, K, V, h, h1, h2, hacc => by
    obtain ⟨⟨d, e1, e2, e3, e4⟩, hrest⟩ := hacc
    have hem := fun st s => wp_emit_ok ha (env := env) st s
    let B := K.hashBits
    -- one unit clause
    have one : ∃ K1, (∀ rest, checkUnitClauses env ((l, hash >>> (64 - B)) :: rest) K = checkUnitClauses env rest K1) ∧
        Sees K1 (V.store false [l]) ∧ K1.hashBits = B := by
      have hsn := single_notaut l
      let m1 : CM Unit := (do
        modifySt (ensureVar l.var)
        checkClauseWithHashes env [l] [hash >>> (64 - B)])
      have hkv := keep_ensureVar l.var
      have hh : V.Hints (fun x => x.neg ∈ [l]) [hash] := by
        refine ⟨[d], by rw [e1]; rfl, by simpa using ⟨e2, e3⟩, ?_⟩
        intro m hm
        rcases e4 m hm with rfl | h
        · left; simp [Lit.neg_neg]
        · exact Or.inr h
      let K0 := ensureVar l.var K
      have hq0 := quiet_ensureVar l.var h.c.pre.wf
      have s0 : Sees K0 V := h.quiet hq0 (kp_ensureVar _ _)
      have hb0 : K0.hashBits = B := by
        obtain ⟨n, e⟩ := ensureVar_eq l.var K
        show (ensureVar l.var K).hashBits = K.hashBits
        rw [e]
      obtain ⟨cls, f1, f2, f3⟩ := s0.hints (by rw [hb0]; exact h1) (by rw [hb0]; exact h2) hh
      rw [hb0] at f1
      have hcc := check_complete env s0.c.pre hsn [hash >>> (64 - B)]
        (Or.inr ⟨cls, [], by simpa using f1, f2, f3⟩)
      obtain ⟨_, Kc, ec, hce, hkc⟩ := wp_run hcc (check_eff env s0.c.pre hsn [hash >>> (64 - B)]) (keep_check env _ _)
      obtain ⟨hqc, ids, -, -⟩ := hce
      have sc : Sees Kc V := s0.quiet hqc hkc
      have hbc : Kc.hashBits = B := by
        have := pres_check env [l] [hash >>> (64 - B)] K0
        rw [ec] at this
        exact this.bits.trans hb0
      have hst : wp (storeUnitClause l) (fun x s' => Stored [l] false Kc s' x.1 x.2) (fun _ _ => False) Kc := by
        refine wp_mono (storeUnit_eff sc.c.pre l false) ?_ (fun _ _ h => h)
        rintro ⟨a, b⟩ s' h
        exact h
      have hst' : wp (storeUnitClause l) (fun _ _ => True) (fun _ _ => False) Kc :=
        wp_mono hst (fun _ _ _ => trivial) (fun _ _ h => h)
      obtain ⟨⟨id, res⟩, Ks, es, hs, hks⟩ := wp_run hst' hst (keep_storeUnit l)
      simp only at hs
      have hbs : Ks.hashBits = B := by
        have := pres_storeUnit l Kc
        rw [es] at this
        exact this.bits.trans hbc
      have ss : Sees Ks (V.store false [l]) := by
        refine sc.of (sc.c.stored hs) hks (V.store_same _ _) hs.assumptions ?_
        rw [hs.prevId, hs.prevLits, (V.store_vars _ _).2.2.2.2.2.2]
        exact sc.prev
      have hunf : ∀ rest, checkUnitClauses env ((l, hash >>> (64 - B)) :: rest) K =
          (do
            match res with
            | .new => do
              let s ← getSt
              emit env (.atClause id false [l] s.traceIds)
            | .duplicate => pure ()
            | .newlyIrredundant => panic
            checkUnitClauses env rest) Ks := by
        intro rest
        conv => lhs; unfold checkUnitClauses
        show EStateM.bind _ _ _ = _
        unfold EStateM.bind
        show EStateM.bind _ _ K0 = _
        unfold EStateM.bind
        rw [ec]
        show EStateM.bind _ _ Kc = _
        unfold EStateM.bind
        rw [es]
        cases res <;> rfl
      cases hres : res with
      | new =>
        have hemit := hem (.atClause id false [l] Ks.traceIds) Ks (fun _ => by simp [transcriptStep])
        have hq : wp (emit env (.atClause id false [l] Ks.traceIds)) (fun _ s' => Quiet Ks [.atClause id false [l] Ks.traceIds] s')
            (fun _ _ => True) Ks := wp_emit_quiet ss.c.pre.wf (fun s' h _ => h) (fun _ _ _ => trivial)
        obtain ⟨_, K1, e', hq', hk'⟩ := wp_run hemit hq (keep_emit env _)
        refine ⟨K1, fun rest => ?_, ss.quiet hq' hk', ?_⟩
        · rw [hunf, hres]
          show EStateM.bind (emit env (.atClause id false [l] Ks.traceIds)) _ Ks = _
          unfold EStateM.bind
          rw [e']
        · have := pres_emit env (.atClause id false [l] Ks.traceIds) Ks
          rw [e'] at this
          exact this.bits.trans hbs
      | duplicate =>
        exact ⟨Ks, fun rest => by rw [hunf, hres]; try rfl, ss, hbs⟩
      | newlyIrredundant =>
        exfalso
        rw [hres] at hs
        have := hs.kind
        generalize hx : StoreResult.newlyIrredundant = x at this
        cases this with
        | empty => simp at hx
        | unitDup => simp at hx
        | unitConflict => simp at hx
        | unitNew => simp at hx
        | long _ _ hl => have := hl.len; simp at this
    obtain ⟨K1, f1, f2, f3⟩ := one
    obtain ⟨K', g1, g2⟩ := units_accept us f2 (by rw [f3]; exact h1) (by rw [f3]; exact h2) hrest
    refine ⟨K', ?_, g2⟩
    rw [f3] at g1
    exact (f1 _).trans g1

end

end Varisat.Checker
