import Verif.Proof.CheckerAccept2
/-! Accepted models, assumptions, failed assumptions and variable steps; all steps together. -/
namespace Varisat.Checker

theorem wp_get_ok {α : Type} {m : CM α} {s : St} {Q : α → St → Prop} (h : wp m Q (fun _ _ => False) s) :
    ∃ a s', m s = .ok a s' ∧ Q a s' := by
  unfold wp at h
  cases hm : m s with
  | ok a s' => rw [hm] at h; exact ⟨a, s', rfl, h⟩
  | error e s' => rw [hm] at h; exact h.elim

theorem Sees.ensureVar {K : St} {V : View} (h : Sees K V) (v : Nat) : Sees (ensureVar v K) V :=
  h.quiet (quiet_ensureVar v h.c.pre.wf) (kp_ensureVar v K)

theorem ensureVar_units (v : Nat) (K : St) : (ensureVar v K).units = K.units := by
  obtain ⟨n, h⟩ := ensureVar_eq v K; rw [h]

/-- The clause part ignores the variable part. -/
theorem SeesC.vars {K : St} {V W : View} (h : SeesC K V) {nv uv uu md} (h1 : W.cnt = V.cnt) (h2 : W.unit = V.unit)
    (h3 : W.unsat = V.unsat) :
    SeesC { K with
      nvars := nv
      userVar := uv
      usedUser := uu
      mode := md } W :=
  ⟨⟨h.pre.wf, h.pre.glob, h.pre.trail⟩, h.count, by rw [h1]; exact h.cnt, by rw [h2]; exact h.unit,
    by rw [h3]; exact h.unsat⟩

theorem Sees.vars {K : St} {V W : View} (h : Sees K V) {uv uu md} (h1 : W.cnt = V.cnt) (h2 : W.unit = V.unit)
    (h3 : W.unsat = V.unsat) (h4 : W.nvars ≤ K.nvars) (h5 : uv = W.user) (h6 : uu = W.used) (h7 : md = W.mode)
    (h8 : W.names = V.names) (h9 : W.asm = V.asm) (h10 : W.prev = V.prev) :
    Sees { K with
      userVar := uv
      usedUser := uu
      mode := md } W :=
  ⟨h.c.vars h1 h2 h3, ⟨h4, h5, h6, h7, by rw [h8]; exact h.v.names, h.v.buf⟩, by rw [h9]; exact h.asm, h.sorted,
    by rw [h10]; exact h.prev⟩

section
variable {env : Env} (ha : Accepting env)
include ha

theorem emit_sees {K : St} {V : View} (h : Sees K V) (st : CheckedStep)
    (ht : env.hasTranscript = true → transcriptStep K st ≠ none) :
    wp (emit env st) (fun _ s' => Sees s' V) (fun _ _ => False) K := by
  have hq : wp (emit env st) (fun _ s' => Quiet K [st] s') (fun _ _ => True) K :=
    wp_emit_quiet h.c.pre.wf (fun s' h _ => h) (fun _ _ _ => trivial)
  obtain ⟨_, K1, e', hq', hk'⟩ := wp_run (wp_emit_ok ha (env := env) st K ht) hq (keep_emit env _)
  unfold wp
  rw [e']
  exact h.quiet hq' hk'

theorem addUser_accept {K : St} {V : View} (h : Sees K V) {g u : Nat} (hacc : V.Acc (.userVarName g (some u))) :
    wp (addUserMapping env g u) (fun _ K' => Sees K' (V.step (.userVarName g (some u)))) (fun _ _ => False) K := by
  obtain ⟨a1, a2, a3, a4⟩ := hacc
  unfold addUserMapping
  rw [wp_bind, wp_modify, wp_bind, wp_get]
  have h0 := h.ensureVar g
  have hnv := lt_ensureVar g K
  have hlow := h.v.nvars
  generalize ensureVar g K = K0 at h0 hnv
  rw [if_neg (by rw [h0.v.used, a2]; simp; omega), if_neg (by rw [h0.v.mode]; exact a3),
    if_neg (by rw [h0.v.user, a4]; simp), wp_bind, wp_modify]
  refine emit_sees ha ?_ _ (fun _ => by simp [transcriptStep])
  exact h0.vars (md := K0.mode) rfl rfl rfl (show max V.nvars (g + 1) ≤ _ by omega) (by rw [h0.v.user]; rfl) (by rw [h0.v.used]; rfl)
    h0.v.mode rfl rfl rfl

theorem removeUser_accept {K : St} {V : View} (h : Sees K V) {g : Nat} (hacc : V.Acc (.userVarName g none)) :
    wp (removeUserMapping env g) (fun _ K' => Sees K' (V.step (.userVarName g none))) (fun _ _ => False) K := by
  have hacc : (V.user g).isSome := hacc
  unfold removeUserMapping View.step
  obtain ⟨u, hu⟩ := Option.isSome_iff_exists.1 hacc
  rw [wp_bind, wp_modify, wp_bind, wp_get]
  have h0 := h.ensureVar g
  have hnv := lt_ensureVar g K
  generalize ensureVar g K = K0 at h0 hnv
  rw [h0.v.user, hu]
  simp only
  rw [wp_bind]
  have hsp : (userFromProofVar K0 g).isSome = true := by
    unfold userFromProofVar
    rw [if_pos (by omega), h0.v.user, hu]; rfl
  refine wp_mono (emit_sees ha h0 _ (fun _ => by
    obtain ⟨x, hx⟩ := Option.isSome_iff_exists.1 hsp
    simp [transcriptStep, hx])) ?_ (fun _ _ h => h)
  intro _ K1 h1
  rw [wp_modify]
  rw [hu]
  exact h1.vars rfl rfl rfl h1.v.nvars (by rw [h1.v.user]) (by rw [h1.v.used]) (by rw [h1.v.mode]) rfl rfl rfl

theorem mode_accept {K : St} {V : View} (h : Sees K V) {g : Nat} {b : Bool} (hacc : V.Acc (.changeSamplingMode g b)) :
    wp (checkChangeSamplingMode env g b) (fun _ K' => Sees K' (V.step (.changeSamplingMode g b))) (fun _ _ => False) K := by
  have hacc : b = true → V.mode g = .sample ∨ (V.user g).isSome := hacc
  unfold checkChangeSamplingMode View.step
  rw [wp_bind, wp_modify, wp_bind, wp_get]
  have h0 := h.ensureVar g
  generalize ensureVar g K = K0 at h0
  simp only
  have hm : b = true ↔ (if b = true then SamplingMode.sample else .witness) = .sample := by
    cases b <;> simp
  generalize (if b = true then SamplingMode.sample else SamplingMode.witness) = m at hm
  have hs : Sees { K0 with mode := upd K0.mode g m } { V with mode := upd V.mode g m } :=
    h0.vars (uv := K0.userVar) (uu := K0.usedUser) rfl rfl rfl h0.v.nvars h0.v.user h0.v.used (by rw [h0.v.mode]) rfl rfl rfl
  split
  · rename_i hne
    rw [wp_bind, wp_modify]
    split
    · exact emit_sees ha hs _ (fun _ => by simp [transcriptStep])
    · rename_i hun
      rw [if_neg, wp_pure]
      · exact hs
      · intro hms
        rcases hacc (hm.2 hms) with h' | h'
        · rw [h0.v.mode, h', hms] at hne; exact hne rfl
        · rw [h0.v.user] at hun; rw [hun] at h'; simp at h'
  · rename_i hme
    rw [wp_pure]
    have : upd V.mode g m = V.mode := by
      funext v
      unfold upd
      split
      · rename_i hv; subst hv
        rw [h0.v.mode] at hme
        exact (by simpa using hme : V.mode v = m).symm
      · rfl
    rw [this]
    exact h0

theorem deleteVar_accept {K : St} {V : View} (h : Sees K V) {g : Nat} (hacc : V.Acc (.deleteVar g)) :
    wp (checkDeleteVar env g) (fun _ K' => Sees K' (V.step (.deleteVar g))) (fun _ _ => False) K := by
  obtain ⟨a1, a2⟩ := hacc
  unfold checkDeleteVar View.step
  rw [wp_bind, wp_modify, wp_bind, wp_get]
  have h0 := h.ensureVar g
  generalize ensureVar g K = K0 at h0
  have hz : ∀ l : Lit, l.var = g → K0.clauseCount l.code = 0 := by
    intro l hl
    rw [h0.c.count l, List.countP_eq_zero]
    intro e he
    simp only [decide_eq_true_eq]
    intro hm
    obtain ⟨hok, red, hpos⟩ := h0.c.counted he
    rw [a2 red e.lits hok ⟨l, hm, hl⟩] at hpos
    omega
  rw [if_neg (by rw [h0.v.user, a1]; simp), if_neg (by
    have e1 := hz (Lit.mk' g true) (Lit.var_mk' ..)
    have e2 := hz (Lit.mk' g false) (Lit.var_mk' ..)
    unfold Lit.mk' at e1 e2
    simp at e1 e2
    omega)]
  have fin : ∀ {K1 : St}, Sees K1 V → K1.units g = none →
      Sees { K1 with
        userVar := upd K1.userVar g none
        mode := upd K1.mode g .sample } { V with
        unit := upd V.unit g none
        user := upd V.user g none
        mode := upd V.mode g .sample } := by
    intro K1 h1 hu
    refine h1.vars (uu := K1.usedUser) rfl ?_ rfl h1.v.nvars (by rw [h1.v.user]) h1.v.used (by rw [h1.v.mode]) rfl rfl rfl
    funext v
    show upd V.unit g none v = V.unit v
    unfold upd
    split
    · rename_i hv; subst hv
      rw [← h1.c.unit, hu]; rfl
    · rfl
  cases hu : K0.units g with
  | none =>
    simp only
    exact fin h0 hu
  | some u =>
    obtain ⟨uid, val⟩ := u
    obtain ⟨id, hid⟩ := h0.c.pre.glob _ _ hu
    simp only at hid
    subst hid
    simp only
    rw [wp_bind]
    refine wp_mono (emit_sees ha h0 _ (fun _ => by simp [transcriptStep])) ?_ (fun _ _ h => h)
    intro _ K1 h1
    rw [wp_bind, wp_modify, wp_modify]
    refine ⟨⟨⟨h1.c.pre.wf, ?_, h1.c.pre.trail⟩, h1.c.count, h1.c.cnt, ?_, h1.c.unsat⟩,
      ⟨h1.v.nvars, by rw [← h1.v.user], h1.v.used, by rw [← h1.v.mode], h1.v.names, h1.v.buf⟩, h1.asm, h1.sorted, h1.prev⟩
    · intro v u hv
      simp only at hv
      unfold upd at hv
      split at hv
      · simp at hv
      · exact h1.c.pre.glob v u hv
    · intro v
      simp only
      unfold upd
      split
      · rfl
      · exact h1.c.unit v

theorem assumptions_accept {K : St} {V : View} (h : Sees K V) {a : List Lit} (hacc : V.Acc (.assumptions a)) :
    wp (checkStep env (.assumptions a)) (fun _ K' => Sees K' (V.step (.assumptions a))) (fun _ _ => False) K := by
  have hacc : ∀ l ∈ a, V.mode l.var = .sample := hacc
  unfold checkStep View.step
  simp only
  obtain ⟨_, K1, e, ⟨hq, hsp⟩, hk⟩ := wp_run (ensureSampling_ok a K (fun l hl => by rw [h.v.mode]; exact hacc l hl))
    (wp_and (wp_ensureSamplingVars a h.c.pre.wf) (ensureSampling_spell a K (fun l hl => by rw [h.v.mode]; exact hacc l hl))) (keep_samplings a)
  rw [wp_bind]
  unfold wp
  rw [e]
  simp only
  have h1 := h.quiet hq hk
  have h2 : Sees { K1 with assumptions := (copyCanonical a).1 } { V with asm := (copyCanonical a).1 } :=
    ⟨⟨⟨h1.c.pre.wf, h1.c.pre.glob, h1.c.pre.trail⟩, h1.c.count, h1.c.cnt, h1.c.unit, h1.c.unsat⟩,
      ⟨h1.v.nvars, h1.v.user, h1.v.used, h1.v.mode, h1.v.names, h1.v.buf⟩, rfl, canonical_ssorted a, h1.prev⟩
  refine emit_sees ha h2 _ (fun _ => ?_)
  have : Spell { K1 with assumptions := (copyCanonical a).1 } (copyCanonical a).1 := fun l hl => hsp l (mem_canonical.1 hl)
  simpa [transcriptStep] using this.map

theorem failed_accept {K : St} {V : View} (h : Sees K V) (h1 : 1 ≤ K.hashBits) (h2 : K.hashBits ≤ 64) {core : List Lit}
    {hs : List Nat} (hacc : V.Acc (.failedAssumptions core hs)) (htr : env.hasTranscript = true → V.Spelled core) :
    ∃ K', checkFailedAssumptions env core (hs.map (· >>> (64 - K.hashBits))) K = .ok () K' ∧ Sees K' V := by
  obtain ⟨a1, a2⟩ := hacc
  have hok := failed_complete env ha h.c.pre h.sorted core (fun he => h.v.spell (htr he)) (by rw [h.asm]; exact a1) (hs.map (· >>> (64 - K.hashBits))) (by
    rcases a2 with ⟨l, hl, ht⟩ | hh
    · refine Or.inl ⟨l, hl, ht.imp id fun ht => (h.c.true_iff _).2 ht⟩
    · obtain ⟨cls, e, e1, e2⟩ := h.hints h1 h2 hh
      exact Or.inr ⟨cls, [], by simpa using e, e1, e2⟩)
  obtain ⟨_, K', e, he, hk⟩ := wp_run hok (failed_eff env h.c.pre core _) (keep_failed env core _)
  obtain ⟨ids, hq, -⟩ := he.run
  exact ⟨K', e, h.quiet hq hk⟩

theorem modelLits_ok {K : St} : ∀ (a seen : List Lit), (∀ l ∈ a, l.var < K.nvars ∧ (K.units l.var).map (·.value) ≠ some l.isNeg) →
    (∀ l ∈ a, l.neg ∉ a) → (∀ l ∈ a, l.neg ∉ seen) →
    wp (modelLits a seen) (fun r s' => s' = K ∧ ∀ l, l ∈ a ∨ l ∈ seen → l ∈ r) (fun _ _ => False) K
  | [], seen, _, _, _ => ⟨rfl, fun l h => by simpa using h⟩
  | l :: ls, seen, h1, h2, h3 => by
    unfold modelLits
    rw [wp_bind, wp_get, if_neg (by have := (h1 l (by simp)).1; omega)]
    have hv : ∀ u, litValue K.units l ≠ some (false, u) := by
      intro u hu
      apply (h1 l (by simp)).2
      unfold litValue at hu
      cases hx : K.units l.var with
      | none => rw [hx] at hu; simp at hu
      | some x =>
        rw [hx] at hu
        simp only [Option.map_some, Option.some.injEq, Prod.mk.injEq] at hu
        simp only [Option.map_some, Option.some.injEq]
        have := hu.1
        revert this
        cases x.value <;> cases l.isNeg <;> simp
    split
    · rename_i u hu; exact absurd hu (hv u)
    · rw [if_neg (h3 l (by simp))]
      refine wp_mono (modelLits_ok ls (l :: seen) (fun m hm => h1 m (by simp [hm])) (fun m hm hm' => h2 m (by simp [hm]) (by simp [hm']))
        ?_) ?_ (fun _ _ h => h)
      · intro m hm hm'
        rcases List.mem_cons.1 hm' with e | hm'
        · exact h2 m (by simp [hm]) (by simp [e])
        · exact h3 m (by simp [hm]) hm'
      · rintro r s' ⟨rfl, hr⟩
        refine ⟨rfl, fun m hm => hr m ?_⟩
        rcases hm with hm | hm
        · rcases List.mem_cons.1 hm with rfl | hm
          · right; simp
          · exact Or.inl hm
        · right; simp [hm]

theorem model_accept {K : St} {V : View} (h : Sees K V) {a : List Lit} (hacc : V.Acc (.model a)) :
    wp (checkModel env a) (fun _ K' => Sees K' V) (fun _ _ => False) K := by
  obtain ⟨a1, a2, a3, a4⟩ := hacc
  unfold checkModel
  rw [wp_bind]
  refine wp_mono (modelLits_ok ha a [] (fun l hl => ⟨Nat.lt_of_lt_of_le (a2 l hl).1 h.v.nvars, by
    rw [h.c.unit]; exact (a2 l hl).2⟩) a1 (by simp)) ?_ (fun _ _ h => h)
  rintro r s2 ⟨e0, hr⟩
  obtain rfl : K = s2 := e0.symm
  rw [wp_bind, wp_get, if_neg, if_neg]
  · exact emit_sees ha h _ (fun _ => by simp [transcriptStep])
  · simp only [Bool.not_eq_true', Bool.not_eq_false, List.all_eq_true, List.any_eq_true, decide_eq_true_eq]
    intro b hb c hc
    have he := stores_iff.1 ⟨b, hb, c, hc, rfl⟩
    obtain ⟨e, he, e1⟩ := he
    obtain ⟨hok, red, hpos⟩ := h.c.counted he
    rw [e1] at hok hpos
    obtain ⟨l, h1, h2⟩ := a4 red _ hok hpos
    exact ⟨l, h1, hr l (Or.inl h2)⟩
  · simp only [Bool.not_eq_true', Bool.not_eq_false, List.all_eq_true, decide_eq_true_eq]
    intro l hl
    rw [h.asm] at hl
    exact hr l (Or.inl (a3 l hl))

end

theorem applyNames_append : ∀ (b : List (Nat × Option Nat)) (n : Nat → Option Nat) (g : Nat) (x : Option Nat),
    applyNames (b ++ [(g, x)]) n = upd (applyNames b n) g x
  | [], _, _, _ => rfl
  | (g', x') :: b, n, g, x => by
    rw [List.cons_append]
    unfold applyNames
    exact applyNames_append b _ g x

theorem solverName_accept {K : St} {V : View} (h : Sees K V) (g : Nat) (x : Option Nat) :
    Sees { K with
      buffered := K.buffered ++ [(g, x)]
      rename := K.rename || x.isSome } (V.step (.solverVarName g x)) := by
  refine ⟨⟨⟨?_, h.c.pre.glob, h.c.pre.trail⟩, h.c.count, h.c.cnt, h.c.unit, h.c.unsat⟩,
    ⟨h.v.nvars, h.v.user, h.v.used, h.v.mode, ?_, ?_⟩, h.asm, h.sorted, h.prev⟩
  · exact h.c.pre.wf
  · show applyNames (K.buffered ++ [(g, x)]) K.names = upd V.names g x
    rw [applyNames_append, h.v.names]
  · intro hr b hb
    simp only [Bool.or_eq_false_iff] at hr
    rcases List.mem_append.1 hb with hb | hb
    · exact h.v.buf hr.1 b hb
    · simp at hb; subst hb
      simpa using hr.2

theorem Sees.withStep {K : St} {V : View} (h : Sees K V) (n : Nat) : Sees { K with step := n } V :=
  ⟨⟨⟨h.c.pre.wf, h.c.pre.glob, h.c.pre.trail⟩, h.c.count, h.c.cnt, h.c.unit, h.c.unsat⟩,
    ⟨h.v.nvars, h.v.user, h.v.used, h.v.mode, h.v.names, h.v.buf⟩, h.asm, h.sorted, h.prev⟩

theorem Sees.init : Sees {} {} :=
  ⟨⟨pre_init, by intro l; rfl, fun _ _ _ => rfl, fun _ => rfl, rfl⟩, ⟨Nat.le_refl _, rfl, rfl, rfl, rfl, fun _ _ h => by simp at h⟩,
    rfl, by simp [SSorted], rfl⟩

section
variable {env : Env} (ha : Accepting env)
include ha

/-- An acceptable step is accepted, with its hashes cut to the current number of bits. -/
theorem Sees.step {K : St} {V : View} (h : Sees K V) (h1 : 1 ≤ K.hashBits) (h2 : K.hashBits ≤ 64) {st : ProofStep}
    (hacc : V.Acc st) (htr : env.hasTranscript = true → V.Tr st) :
    ∃ K', Op.exec env (.step (Out.mapHashes (· >>> (64 - K.hashBits)) st)) K = .ok () K' ∧ Sees K' (V.step st) ∧
      K'.hashBits = K.hashBits := by
  have h0 := h.withStep (K.step + 1)
  suffices hs : ∃ K', checkStep env (Out.mapHashes (· >>> (64 - K.hashBits)) st) { K with step := K.step + 1 } = .ok () K' ∧
      Sees K' (V.step st) by
    obtain ⟨K', e1, e2⟩ := hs
    refine ⟨K', e1, e2, ?_⟩
    have := bits_step env _ e1
    cases st <;> first | exact this | exact absurd hacc id
  cases st with
  | addClause c => exact addClause_accept ha h0 hacc htr
  | atClause r c hs => exact at_accept ha h0 h1 h2 hacc
  | unitClauses us => exact units_accept ha us h0 h1 h2 hacc
  | deleteClause c p => exact delete_accept ha h0 hacc
  | deleteVar v =>
    obtain ⟨_, K', e, hs⟩ := wp_get_ok (deleteVar_accept ha h0 hacc)
    exact ⟨K', e, hs⟩
  | changeSamplingMode v b =>
    obtain ⟨_, K', e, hs⟩ := wp_get_ok (mode_accept ha h0 hacc)
    exact ⟨K', e, hs⟩
  | userVarName g u =>
    cases u with
    | none =>
      obtain ⟨_, K', e, hs⟩ := wp_get_ok (removeUser_accept ha h0 hacc)
      exact ⟨K', e, hs⟩
    | some u =>
      obtain ⟨_, K', e, hs⟩ := wp_get_ok (addUser_accept ha h0 hacc)
      exact ⟨K', e, hs⟩
  | solverVarName g x => exact ⟨_, rfl, solverName_accept h0 g x⟩
  | model a =>
    obtain ⟨_, K', e, hs⟩ := wp_get_ok (model_accept ha h0 hacc)
    exact ⟨K', e, hs⟩
  | assumptions a =>
    obtain ⟨_, K', e, hs⟩ := wp_get_ok (assumptions_accept ha h0 hacc)
    exact ⟨K', e, hs⟩
  | failedAssumptions c hs => exact failed_accept ha h0 h1 h2 hacc htr
  | changeHashBits b => exact absurd hacc id
  | end_ => exact absurd hacc id

/-- `Checker::add_clause`. -/
theorem Sees.add {K : St} {V : View} (h : Sees K V) {c : List Lit} (hacc : V.Acc (.addClause c))
    (htr : env.hasTranscript = true → V.Tr (.addClause c)) :
    ∃ K', Op.exec env (.add c) K = .ok () K' ∧ Sees K' (V.step (.addClause c)) ∧ K'.hashBits = K.hashBits := by
  obtain ⟨K', e, hs⟩ := addClause_accept ha h hacc htr
  have := pres_addClause env c K
  rw [e] at this
  exact ⟨K', e, hs, this.bits⟩

omit ha in
/-- Changing the number of hash bits. -/
theorem Sees.bits {K : St} {V : View} (h : Sees K V) (b : Nat) :
    ∃ K', Op.exec env (.step (.changeHashBits b)) K = .ok () K' ∧ Sees K' V ∧ K'.hashBits = b := by
  have h0 := h.withStep (K.step + 1)
  refine ⟨rehash env { ({ K with step := K.step + 1 } : St) with hashBits := b }, rfl, ?_, rfl⟩
  generalize { K with step := K.step + 1 } = K0 at h0
  have hk : Keep K0 (rehash env { K0 with hashBits := b }) :=
    Keep.trans (t := { K0 with hashBits := b }) ⟨rfl, rfl, rfl, Nat.le_refl _, rfl, id⟩ (kp_rehash env _)
  have hq := wp_ok (step_eff env h0.c.pre (.changeHashBits b)) (s' := rehash env { K0 with hashBits := b }) rfl
  obtain ⟨o, hq, -⟩ := hq
  exact h0.quiet hq hk

end

/-- A sequence of acceptable steps, which can be shown to the user if `t`. -/
inductive ShownT (t : Bool) : List ProofStep → View → Prop
  | nil : ShownT t [] {}
  | snoc {log V st} : ShownT t log V → V.Acc st → (t = true → V.Tr st) → ShownT t (log ++ [st]) (V.step st)

abbrev Shown := ShownT true

theorem Shown.nil : Shown [] {} := ShownT.nil

theorem Shown.snoc {log V st} (h : Shown log V) (ha : V.Acc st) (ht : V.Tr st := by trivial) : Shown (log ++ [st]) (V.step st) :=
  ShownT.snoc h ha (fun _ => ht)

theorem execs_app (env : Env) : ∀ (a b : List Op) (s : St),
    execs env (a ++ b) s = match execs env a s with
      | .ok _ s' => execs env b s'
      | .error e s' => .error e s'
  | [], b, s => rfl
  | op :: a, b, s => by
    show EStateM.bind (op.exec env) (fun _ => execs env (a ++ b)) s = _
    show _ = match EStateM.bind (op.exec env) (fun _ => execs env a) s with
      | .ok _ s' => execs env b s'
      | .error e s' => .error e s'
    unfold EStateM.bind
    cases op.exec env s with
    | ok x s' => exact execs_app env a b s'
    | error e s' => rfl

theorem execs_one (env : Env) (op : Op) {s s' : St} (h : op.exec env s = .ok () s') : execs env [op] s = .ok () s' := by
  show EStateM.bind (op.exec env) (fun _ => execs env []) s = _
  unfold EStateM.bind
  rw [h]; rfl

/-- Calls that give the checker the steps of a log: hashes cut to the number of bits last announced. -/
inductive Rendered : List ProofStep → Nat → List Op → Prop
  | nil : Rendered [] 64 []
  | step {log b ops} (st : ProofStep) : Rendered log b ops →
      Rendered (log ++ [st]) b (ops ++ [.step (Out.mapHashes (· >>> (64 - b)) st)])
  | add {log b ops} (c : List Lit) : Rendered log b ops → Rendered (log ++ [.addClause c]) b (ops ++ [.add c])
  | bits {log b ops} (b' : Nat) : Rendered log b ops → 1 ≤ b' → b' ≤ 64 →
      Rendered log b' (ops ++ [.step (.changeHashBits b')])

theorem ShownT.inv {t log st V'} (h : ShownT t (log ++ [st]) V') :
    ∃ V, ShownT t log V ∧ V.Acc st ∧ (t = true → V.Tr st) ∧ V' = V.step st := by
  generalize hl : log ++ [st] = l at h
  cases h with
  | nil => simp at hl
  | snoc h' ha ht =>
    obtain ⟨rfl, e⟩ := List.append_inj' hl rfl
    simp only [List.cons.injEq, and_true] at e
    subst e
    exact ⟨_, h', ha, ht, rfl⟩

/-- Acceptable steps are accepted. -/
theorem ShownT.accepted {env : Env} (ha : Accepting env) {t : Bool} (hn : env.hasTranscript = true → t = true) {log b ops}
    (hr : Rendered log b ops) : ∀ {V}, ShownT t log V →
    (1 ≤ b ∧ b ≤ 64) ∧ ∃ K, execs env ops {} = .ok () K ∧ Sees K V ∧ K.hashBits = b := by
  have app : ∀ {ops op K K'}, execs env ops {} = .ok () K → Op.exec env op K = .ok () K' →
      execs env (ops ++ [op]) {} = .ok () K' := by
    intro ops op K K' h h'
    rw [execs_app, h]
    exact execs_one env op h'
  induction hr with
  | nil =>
    intro V h
    generalize hl : ([] : List ProofStep) = l at h
    cases h with
    | nil => exact ⟨by omega, {}, rfl, Sees.init, rfl⟩
    | snoc => simp at hl
  | step st _ ih =>
    intro V' h
    obtain ⟨V, h', hacc, htr, rfl⟩ := h.inv
    obtain ⟨hb, K, e, hs, hbits⟩ := ih h'
    obtain ⟨K', e', hs', hb'⟩ := hs.step ha (by omega) (by omega) hacc (fun he => htr (hn he))
    rw [hbits] at e'
    exact ⟨hb, K', app e e', hs', hb'.trans hbits⟩
  | add c _ ih =>
    intro V' h
    obtain ⟨V, h', hacc, htr, rfl⟩ := h.inv
    obtain ⟨hb, K, e, hs, hbits⟩ := ih h'
    obtain ⟨K', e', hs', hb'⟩ := hs.add ha hacc (fun he => htr (hn he))
    exact ⟨hb, K', app e e', hs', hb'.trans hbits⟩
  | bits b' _ h1 h2 ih =>
    intro V h
    obtain ⟨hb, K, e, hs, hbits⟩ := ih h
    obtain ⟨K', e', hs', hb'⟩ := hs.bits (env := env) b'
    exact ⟨⟨h1, h2⟩, K', app e e', hs', hb'⟩

end Varisat.Checker
