import Verif.Proof.CheckerReplay
import Verif.Proof.CheckerKeep
/-! Completeness of the clause check for well-ordered hints. -/
namespace Varisat.Checker

/-- The literal is true in the (temporary) assignment. -/
def IsTrue (units : Nat → Option UnitClause) (l : Lit) : Prop :=
  ∃ u, units l.var = some u ∧ u.value = !l.isNeg

/-- Same values, whatever the justification. -/
def SameVal (r r' : Rup) : Prop := ∀ v, (r'.units v).map (·.value) = (r.units v).map (·.value)

theorem isTrue_iff {units : Nat → Option UnitClause} {l : Lit} :
    IsTrue units l ↔ (units l.var).map (·.value) = some (!l.isNeg) := by
  unfold IsTrue
  cases units l.var <;> simp

theorem SameVal.isTrue {r r' : Rup} (h : SameVal r r') (l : Lit) : IsTrue r'.units l ↔ IsTrue r.units l := by
  rw [isTrue_iff, isTrue_iff, h]

theorem SameVal.isNone {r r' : Rup} (h : SameVal r r') (v : Nat) : (r'.units v).isNone = (r.units v).isNone := by
  have := h v
  cases h1 : r'.units v <;> cases h2 : r.units v <;> simp_all

theorem SameVal.trans {r r' r'' : Rup} (h : SameVal r r') (h' : SameVal r' r'') : SameVal r r'' :=
  fun v => (h' v).trans (h v)

theorem litValue_cases (units : Nat → Option UnitClause) (l : Lit) :
    (litValue units l = none ∧ units l.var = none) ∨
    (∃ u, litValue units l = some (true, u) ∧ units l.var = some u ∧ IsTrue units l) ∨
    (∃ u, litValue units l = some (false, u) ∧ units l.var = some u ∧ u.value = l.isNeg ∧ IsTrue units l.neg) := by
  unfold litValue
  cases h : units l.var with
  | none => simp
  | some u =>
    right
    simp only [Option.map_some]
    by_cases hv : u.value = l.isNeg
    · right
      refine ⟨u, by simp [hv], rfl, hv, ?_⟩
      exact ⟨u, by rw [Lit.var_neg, h], by rw [Lit.isNeg_neg, Bool.not_not, hv]⟩
    · left
      refine ⟨u, ?_, rfl, ⟨u, h, ?_⟩⟩
      · cases hu : u.value <;> cases hl : l.isNeg <;> simp_all
      · cases hu : u.value <;> cases hl : l.isNeg <;> simp_all

theorem scan_val : ∀ (ls : List Lit) (r : Rup) (n : Nat) (u : Option Lit),
    SameVal r (scanLits ls r n u).1 ∧
    ((scanLits ls r n u).2 = .satisfied → ∃ m ∈ ls, IsTrue r.units m) ∧
    (∀ k x, (scanLits ls r n u).2 = .open_ k x → k = n + ls.countP (fun m => (r.units m.var).isNone) ∧
      (x = u ∧ (∀ m ∈ ls, IsTrue r.units m.neg) ∨ ∃ m ∈ ls, x = some m ∧ r.units m.var = none)) := by
  intro ls
  induction ls with
  | nil =>
    intro r n u
    refine ⟨fun v => rfl, by simp [scanLits], ?_⟩
    intro k x h
    simp only [scanLits, Scan.open_.injEq] at h
    exact ⟨by simp [h.1], Or.inl ⟨h.2.symm, by simp⟩⟩
  | cons l ls ih =>
    intro r n u
    rcases litValue_cases r.units l with ⟨h1, h2⟩ | ⟨w, h1, h2, h3⟩ | ⟨w, h1, h2, h3, h4⟩
    · unfold scanLits
      rw [h1]
      simp only
      obtain ⟨i1, i2, i3⟩ := ih r (n + 1) (some l)
      refine ⟨i1, ?_, ?_⟩
      · intro h
        obtain ⟨m, hm, ht⟩ := i2 h
        exact ⟨m, List.mem_cons_of_mem _ hm, ht⟩
      · intro k x h
        obtain ⟨j1, j2⟩ := i3 k x h
        refine ⟨by rw [j1, List.countP_cons]; simp [h2]; omega, ?_⟩
        rcases j2 with ⟨rfl, -⟩ | ⟨m, hm, j⟩
        · exact Or.inr ⟨l, List.mem_cons_self .., rfl, h2⟩
        · exact Or.inr ⟨m, List.mem_cons_of_mem _ hm, j⟩
    · unfold scanLits
      rw [h1]
      simp only
      exact ⟨fun v => rfl, fun _ => ⟨l, List.mem_cons_self .., h3⟩, by intro k x h; simp at h⟩
    · have tail : ∀ r', SameVal r r' → 
          SameVal r (scanLits ls r' n u).1 ∧
          ((scanLits ls r' n u).2 = .satisfied → ∃ m ∈ l :: ls, IsTrue r.units m) ∧
          (∀ k x, (scanLits ls r' n u).2 = .open_ k x → k = n + (l :: ls).countP (fun m => (r.units m.var).isNone) ∧
            (x = u ∧ (∀ m ∈ l :: ls, IsTrue r.units m.neg) ∨ ∃ m ∈ l :: ls, x = some m ∧ r.units m.var = none)) := by
        intro r' hr
        obtain ⟨i1, i2, i3⟩ := ih r' n u
        refine ⟨hr.trans i1, ?_, ?_⟩
        · intro h
          obtain ⟨m, hm, ht⟩ := i2 h
          exact ⟨m, List.mem_cons_of_mem _ hm, (hr.isTrue m).1 ht⟩
        · intro k x h
          obtain ⟨j1, j2⟩ := i3 k x h
          refine ⟨?_, ?_⟩
          · rw [j1, List.countP_cons]
            simp only [h2, Option.isNone_some, Bool.false_eq_true, if_false, Nat.add_zero]
            congr 1
            apply List.countP_congr
            intro m _
            rw [hr.isNone]
          · rcases j2 with ⟨j2, j3⟩ | ⟨m, hm, j2, j3⟩
            · left
              refine ⟨j2, ?_⟩
              intro m hm
              rcases List.mem_cons.1 hm with rfl | hm
              · exact h4
              · exact (hr.isTrue _).1 (j3 m hm)
            · right
              refine ⟨m, List.mem_cons_of_mem _ hm, j2, ?_⟩
              have := hr.isNone m.var
              rw [j3] at this
              simpa using this.symm
      unfold scanLits
      rw [h1]
      obtain ⟨wid, wv⟩ := w
      simp only
      cases wid with
      | global id =>
        simp only
        refine tail _ ?_
        intro v
        simp only
        by_cases hv : v = l.var
        · subst hv; rw [upd_same, h2]; simp only at h3; simp [h3]
        · rw [upd_ne _ _ hv]
      | tracePos p => exact tail _ (fun v => rfl)
      | inClause => exact tail _ (fun v => rfl)

/-- One candidate list: values only grow; a clause with at most one literal not false gets decided. -/
theorem try_complete (buffer : List Lit) : ∀ (cs : List Clause) (r : Rup),
    (∀ l, IsTrue r.units l → IsTrue (tryCandidates buffer cs r).1.units l) ∧
    (∀ c ∈ cs, ∀ l, (c.lits.slice buffer).Nodup → (∀ m ∈ c.lits.slice buffer, m = l ∨ IsTrue r.units m.neg) →
      l ∈ c.lits.slice buffer →
      (tryCandidates buffer cs r).2 = true ∨ IsTrue (tryCandidates buffer cs r).1.units l) ∧
    (∀ c ∈ cs, (∀ m ∈ c.lits.slice buffer, IsTrue r.units m.neg) → (tryCandidates buffer cs r).2 = true) := by
  intro cs
  induction cs with
  | nil => intro r; simp [tryCandidates]
  | cons c cs ih =>
    intro r
    obtain ⟨s1, s2, s3⟩ := scan_val (c.lits.slice buffer) r 0 none
    have hcontra : ∀ m : Lit, IsTrue r.units m → IsTrue r.units m.neg → False := by
      rintro m ⟨u, h1, h2⟩ ⟨w, h3, h4⟩
      rw [Lit.var_neg, h1] at h3
      simp only [Option.some.injEq] at h3
      subst h3
      rw [h2, Lit.isNeg_neg] at h4
      cases hm : m.isNeg <;> simp_all
    unfold tryCandidates
    simp only
    generalize scanLits (c.lits.slice buffer) r 0 none = sc at s1 s2 s3
    obtain ⟨r1, res⟩ := sc
    simp only at s1 s2 s3
    -- continuing with the remaining candidates from a state with more values
    have cont : ∀ r2 : Rup, (∀ l, IsTrue r.units l → IsTrue r2.units l) →
        (∀ l, (c.lits.slice buffer).Nodup → (∀ m ∈ c.lits.slice buffer, m = l ∨ IsTrue r.units m.neg) →
          l ∈ c.lits.slice buffer → IsTrue r2.units l) →
        (¬ ∀ m ∈ c.lits.slice buffer, IsTrue r.units m.neg) →
        (∀ l, IsTrue r.units l → IsTrue (tryCandidates buffer cs r2).1.units l) ∧
        (∀ d ∈ c :: cs, ∀ l, (d.lits.slice buffer).Nodup → (∀ m ∈ d.lits.slice buffer, m = l ∨ IsTrue r.units m.neg) →
          l ∈ d.lits.slice buffer →
          (tryCandidates buffer cs r2).2 = true ∨ IsTrue (tryCandidates buffer cs r2).1.units l) ∧
        (∀ d ∈ c :: cs, (∀ m ∈ d.lits.slice buffer, IsTrue r.units m.neg) →
          (tryCandidates buffer cs r2).2 = true) := by
      intro r2 hmono hc hno
      obtain ⟨i1, i2, i3⟩ := ih r2
      refine ⟨fun l h => i1 l (hmono l h), ?_, ?_⟩
      · intro d hd l hnd hm hl
        rcases List.mem_cons.1 hd with rfl | hd
        · exact Or.inr (i1 l (hc l hnd hm hl))
        · exact i2 d hd l hnd (fun m hmm => (hm m hmm).imp id (hmono _)) hl
      · intro d hd hm
        rcases List.mem_cons.1 hd with rfl | hd
        · exact absurd hm hno
        · exact i3 d hd fun m hmm => hmono _ (hm m hmm)
    cases res with
    | satisfied =>
      obtain ⟨m, hm, ht⟩ := s2 rfl
      refine cont r1 (fun l h => (s1.isTrue l).2 h) ?_ ?_
      · intro l _ hall hl
        rcases hall m hm with rfl | hf
        · exact (s1.isTrue _).2 ht
        · exact (hcontra m ht hf).elim
      · intro hall; exact hcontra m ht (hall m hm)
    | open_ k x =>
      obtain ⟨t1, t2⟩ := s3 k x rfl
      cases x with
      | none =>
        refine ⟨fun l h => (s1.isTrue l).2 h, fun _ _ _ _ _ _ => Or.inl rfl, fun _ _ _ => rfl⟩
      | some l0 =>
        rcases t2 with ⟨t2, -⟩ | ⟨m0, hm0, t2, t3⟩
        · simp at t2
        simp only [Option.some.injEq] at t2
        subst t2
        have hno : ¬ ∀ m ∈ c.lits.slice buffer, IsTrue r.units m.neg := by
          intro hall
          obtain ⟨w, hw, -⟩ := hall l0 hm0
          rw [Lit.var_neg, t3] at hw
          simp at hw
        have huniq : ∀ l, (∀ m ∈ c.lits.slice buffer, m = l ∨ IsTrue r.units m.neg) → l0 = l := by
          intro l hall
          rcases hall l0 hm0 with h | ⟨w, hw, -⟩
          · exact h
          · rw [Lit.var_neg, t3] at hw; simp at hw
        simp only
        split
        · refine cont _ ?_ ?_ hno
          · intro l h
            have hl := (s1.isTrue l).2 h
            obtain ⟨w, hw, hv⟩ := hl
            have hne : l.var ≠ l0.var := by
              intro e
              have := s1.isNone l0.var
              rw [t3, ← e, hw] at this
              simp at this
            refine ⟨w, ?_, hv⟩
            simp only
            rw [upd_ne _ _ hne]; exact hw
          · intro l _ hall hl
            have := huniq l hall
            subst this
            exact ⟨_, upd_same _ _ _, rfl⟩
        · rename_i hk
          refine cont r1 (fun l h => (s1.isTrue l).2 h) ?_ hno
          intro l hnd hall hl
          exfalso
          have := huniq l hall
          subst this
          apply hk
          rw [t1, Nat.zero_add]
          have hperm : (c.lits.slice buffer).countP (fun m => (r.units m.var).isNone) =
              (c.lits.slice buffer).count l0 := by
            unfold List.count
            apply List.countP_congr
            intro m hm
            constructor
            · intro h
              rcases hall m hm with rfl | ⟨w, hw, -⟩
              · simp
              · rw [Lit.var_neg] at hw; rw [hw] at h; simp at h
            · intro h
              have : m = l0 := by simpa using h
              rw [this, t3]; rfl
          rw [hperm, List.count_eq_one_of_mem hnd hl]

theorem prop_complete {m : Buckets} {buffer : List Lit} (hnd : ∀ b ∈ m, ∀ c ∈ b.2, (c.lits.slice buffer).Nodup) :
    ∀ (cls : List (List Lit)) (hs : List Nat) (known : Lit → Prop) (r : Rup) (extra : List Nat),
      (∀ l, known l → IsTrue r.units l) → UnitChain Lit.neg known cls →
      List.Forall₂ (fun h c => ∃ k ∈ bucket m h, k.lits.slice buffer = c) hs cls →
      (propHashes m buffer (hs ++ extra) r).2 = .unsat := by
  intro cls
  induction cls with
  | nil => intro hs known r extra _ h; exact h.elim
  | cons c cls ih =>
    intro hs known r extra hk hch hf
    obtain ⟨h, hs, rfl⟩ : ∃ h hs', hs = h :: hs' := by cases hf; exact ⟨_, _, rfl⟩
    obtain ⟨⟨k, hkm, hkc⟩, hf⟩ := List.forall₂_cons.1 hf
    rw [List.cons_append]
    unfold propHashes
    obtain ⟨b, bs, hb⟩ : ∃ b bs, bucket m h = b :: bs := by
      cases hbm : bucket m h with
      | nil => rw [hbm] at hkm; simp at hkm
      | cons b bs => exact ⟨b, bs, rfl⟩
    have hknd : (k.lits.slice buffer).Nodup := by
      obtain ⟨bb, hbb, -, hkb⟩ := mem_bucket hkm
      exact hnd bb hbb k hkb
    rw [hb] at hkm ⊢
    simp only
    obtain ⟨t1, t2, t3⟩ := try_complete buffer (b :: bs) r
    generalize tryCandidates buffer (b :: bs) r = tc at t1 t2 t3
    obtain ⟨r1, res⟩ := tc
    simp only at t1 t2 t3 ⊢
    cases res with
    | true => rfl
    | false =>
      simp only
      cases cls with
      | nil =>
        exfalso
        have := t3 k hkm (by rw [hkc]; intro m hm; exact hk _ (hch m hm))
        simp at this
      | cons d cs =>
        obtain ⟨l, hl, hall, hch⟩ := hch
        have := t2 k hkm l hknd (by rw [hkc]; intro m hm; exact (hall m hm).imp id (hk _)) (by rw [hkc]; exact hl)
        rcases this with h | h
        · simp at h
        · refine ih hs (fun x => x = l ∨ known x) r1 extra ?_ hch hf
          intro x hx
          rcases hx with rfl | hx
          · exact h
          · exact t1 x (hk x hx)

/-- Processors and transcript accept every step. -/
structure Accepting (env : Env) : Prop where
  proc : env.hasProc = true → ∀ o, env.proc o = true
  transcript : env.hasTranscript = true → ∀ t, env.transcript t = true

theorem userFromProofVar_congr {s s' : St} (h1 : s'.nvars = s.nvars) (h2 : s'.userVar = s.userVar) (h3 : s'.mode = s.mode) (v : Nat) :
    userFromProofVar s' v = userFromProofVar s v := by
  unfold userFromProofVar
  rw [h1, h2, h3]

theorem mapLits_congr {s s' : St} (h1 : s'.nvars = s.nvars) (h2 : s'.userVar = s.userVar) (h3 : s'.mode = s.mode) :
    ∀ ls, mapLits s' ls = mapLits s ls
  | [] => rfl
  | l :: ls => by
    unfold mapLits
    rw [userFromProofVar_congr h1 h2 h3, mapLits_congr h1 h2 h3 ls]

theorem transcriptStep_congr {s s' : St} (h1 : s'.nvars = s.nvars) (h2 : s'.userVar = s.userVar) (h3 : s'.mode = s.mode) (st : CheckedStep) :
    transcriptStep s' st = transcriptStep s st := by
  have e1 := userFromProofVar_congr h1 h2 h3
  have e2 := mapLits_congr h1 h2 h3
  cases st with
  | userVar v x => cases x <;> simp only [transcriptStep, e1]
  | _ => simp only [transcriptStep, e1, e2]

/-- The transcript has names for the variables. -/
def Spell (s : St) (ls : List Lit) : Prop := ∀ l ∈ ls, (userFromProofVar s l.var).isSome = true

theorem Spell.keep {s s' : St} {ls : List Lit} (h : Spell s ls) (hk : Keep s s') : Spell s' ls := by
  intro l hl
  have := h l hl
  unfold userFromProofVar at this ⊢
  rw [hk.user, hk.mode]
  have hv := hk.nvars
  split at this
  · rw [if_pos (by omega)]; exact this
  · simp at this

theorem wp_keep {α : Type} {m : CM α} {s : St} {Q : α → St → Prop} {E : Err → St → Prop}
    (h : wp m Q E s) (hk : Keeps m) : wp m (fun a s' => Q a s' ∧ Keep s s') E s := by
  unfold wp at h ⊢
  cases hm : m s with
  | ok a s' => rw [hm] at h; exact ⟨h, hk.ok hm⟩
  | error e s' => rw [hm] at h; exact h

theorem Spell.map {s : St} : ∀ {ls : List Lit}, Spell s ls → mapLits s ls ≠ none
  | [], _ => by simp [mapLits]
  | l :: ls, h => by
    obtain ⟨u, hu⟩ := Option.isSome_iff_exists.1 (h l (by simp))
    obtain ⟨us, hus⟩ := Option.ne_none_iff_exists'.1 (Spell.map (fun x hx => h x (by simp [hx])) : mapLits s ls ≠ none)
    unfold mapLits
    rw [hu, hus]
    simp

/-- `emit` of steps the transcript does not panic on. -/
theorem emit_ok {env : Env} (ha : Accepting env) {st : CheckedStep} {s : St}
    (ht : env.hasTranscript = true → transcriptStep s st ≠ none) :
    ∃ s', emit env st s = .ok () s' := by
  unfold emit
  simp only
  rw [if_neg]
  · split
    · rename_i h
      split
      · rename_i h'; exact absurd ((transcriptStep_congr (s := { s with out := s.out ++ [st] }) (s' := s) rfl rfl rfl st).trans h') (ht h)
      · exact ⟨_, rfl⟩
      · rw [if_pos (ha.transcript h _)]; exact ⟨_, rfl⟩
    · exact ⟨_, rfl⟩
  · intro h
    simp only [Bool.and_eq_true, Bool.not_eq_true'] at h
    rw [ha.proc h.1] at h
    simp at h

/-- The hash the checker looks a clause up by in the next check, `rup.rs:47-50` and `hash.rs:38-74`. -/
def lookupHash (s : St) (c : List Lit) : Nat :=
  hashOf s.hashBits (if s.rename then applyNames s.buffered s.names else s.names) c

/-- Stored long clauses. -/
def Stores (s : St) (d : List Lit) : Prop := ∃ b ∈ s.clauses, ∃ k ∈ b.2, k.lits.slice s.buffer = d

theorem stores_iff {s : St} {d : List Lit} : Stores s d ↔ ∃ e ∈ ents s.buffer s.clauses, e.lits = d := by
  unfold Stores ents
  constructor
  · rintro ⟨b, hb, k, hk, rfl⟩
    exact ⟨_, List.mem_map_of_mem (mem_flat.2 ⟨b, hb, hk⟩), rfl⟩
  · rintro ⟨e, he, rfl⟩
    obtain ⟨k, hk, rfl⟩ := List.mem_map.1 he
    obtain ⟨b, hb, hkb⟩ := mem_flat.1 hk
    exact ⟨b, hb, k, hkb, rfl⟩

theorem wp_and {α : Type} {m : CM α} {Q Q' : α → St → Prop} {E E' : Err → St → Prop} {s : St}
    (h : wp m Q E s) (h' : wp m Q' E' s) : wp m (fun a s => Q a s ∧ Q' a s) (fun e s => E e s ∧ E' e s) s := by
  unfold wp at *
  cases hm : m s <;> rw [hm] at h h'
  · exact ⟨h, h'⟩
  · exact ⟨h, h'⟩

/-- The clause check succeeds on well-ordered hints, and on clauses with a literal known to be true. -/
theorem check_complete (env : Env) {s : St} (hp : Pre s) {lits : List Lit} (hn : ∀ l ∈ lits, l.neg ∉ lits)
    (hashes : List Nat)
    (hc : (∃ l ∈ lits, IsTrue s.units l) ∨
      ∃ cls extra, hashes = cls.map (lookupHash s) ++ extra ∧ (∀ d ∈ cls, Stores s d) ∧
        UnitChain Lit.neg (fun l => l.neg ∈ lits ∨ IsTrue s.units l) cls) :
    wp (checkClauseWithHashes env lits hashes) (fun _ _ => True) (fun _ _ => False) s := by
  unfold checkClauseWithHashes
  simp only [wp_bind, wp_modify, wp_get]
  obtain ⟨s1, hs1, hq1, hn1⟩ : ∃ s1, (if s.rename then rehash env s else s) = s1 ∧ Quiet s [] s1 ∧
      ∀ c, hashOf s1.hashBits s1.names c = lookupHash s c := by
    by_cases hr : s.rename = true
    · obtain ⟨m, h1, h2, h3⟩ := rehash_spec env (s := s) hp.wf
      refine ⟨_, rfl, ?_, ?_⟩
      · rw [if_pos hr, h1]
        exact ⟨⟨h2, h3, rfl, rfl, rfl, rfl, rfl, rfl, rfl⟩, rfl, rfl, by simp⟩
      · rw [if_pos hr, h1]
        intro c
        unfold lookupHash
        rw [if_pos hr]
    · refine ⟨s, by rw [if_neg hr], Quiet.refl hp.wf, ?_⟩
      intro c
      unfold lookupHash
      rw [if_neg hr]
  rw [hs1]
  have hp1 := hq1.toSame.pre hp
  split
  · rename_i ht; exact absurd hp1.trail ht
  · simp only [wp_bind, wp_modify, wp_get]
    obtain ⟨nv, hnv⟩ := ensureVars_eq lits { s1 with
        trace := []
        edges := [] }
    rw [hnv]
    simp only
    split
    · rw [wp_modify]; trivial
    · rename_i hf
      obtain ⟨l, hl, u, hu, hv, h⟩ := findTrue_some hf
      rcases h with ⟨id', e1, e2⟩ | ⟨-, h⟩
      · simp at e1
      · obtain ⟨id, e⟩ := hp1.glob _ _ hu
        exact absurd e (h id)
    · rename_i hf
      rcases hc with ⟨l, hl, u, hu, hv⟩ | ⟨cls, extra, rfl, hst, hch⟩
      · exfalso
        have := findTrue_none hf l hl u (by rw [hq1.units]; exact hu)
        rw [hv] at this
        cases l.isNeg <;> simp at this
      · have hk : ∀ l, (l.neg ∈ lits ∨ IsTrue s.units l) →
            IsTrue (assumeFalse lits { units := s1.units }).units l := by
          intro l hl
          unfold IsTrue
          rw [assumeFalse_units lits hn]
          have hmk : l.neg = Lit.mk' l.var l.isNeg := by
            rw [← Lit.mk'_var_neg l.neg, Lit.var_neg, Lit.isNeg_neg, Bool.not_not]
          rcases hl with hl | ⟨u, hu, hv⟩
          · rw [hmk] at hl
            cases hs : l.isNeg with
            | true => rw [hs] at hl; rw [if_pos hl]; exact ⟨_, rfl, rfl⟩
            | false =>
              rw [hs] at hl
              rw [if_neg, if_pos hl]
              · exact ⟨_, rfl, rfl⟩
              · intro h
                have := hn _ h
                exact this (by
                  have : (Lit.mk' l.var true).neg = Lit.mk' l.var false :=
                    Lit.ext_var_neg (by simp) (by simp)
                  rw [this]; exact hl)
          · have h1 : l ∉ lits := by
              intro h
              have := findTrue_none hf l h u (by rw [hq1.units]; exact hu)
              rw [hv] at this
              cases l.isNeg <;> simp at this
            have hml : l = Lit.mk' l.var (!l.isNeg) := (Lit.mk'_var_neg l).symm
            cases hs : l.isNeg with
            | true =>
              rw [hs] at hml hmk
              by_cases h : l.neg ∈ lits
              · rw [hmk] at h; rw [if_pos h]; exact ⟨_, rfl, rfl⟩
              · rw [hmk] at h
                rw [if_neg h, if_neg (by rw [show false = !true from rfl, ← hml]; exact h1)]
                refine ⟨u, by rw [hq1.units]; exact hu, by rw [hv, hs]⟩
            | false =>
              rw [hs] at hml hmk
              rw [if_neg (by rw [show true = !false from rfl, ← hml]; exact h1)]
              by_cases h : l.neg ∈ lits
              · rw [hmk] at h; rw [if_pos h]; exact ⟨_, rfl, rfl⟩
              · rw [hmk] at h
                rw [if_neg h]
                refine ⟨u, by rw [hq1.units]; exact hu, by rw [hv, hs]⟩
        have hnd : ∀ b ∈ s1.clauses, ∀ c ∈ b.2, (c.lits.slice s1.buffer).Nodup := by
          intro b hb c hcb
          have := (hq1.wf.ent (entryOf s1.buffer c) (List.mem_map_of_mem (mem_flat.2 ⟨b, hb, hcb⟩))).1
          exact ssorted_nodup this.sorted
        have hf2 : List.Forall₂ (fun h c => ∃ k ∈ bucket s1.clauses h, k.lits.slice s1.buffer = c)
            (cls.map (lookupHash s)) cls := by
          clear hch hk
          induction cls with
          | nil => exact .nil
          | cons d cls ih =>
            refine .cons ?_ (ih fun d hd => hst d (List.mem_cons_of_mem _ hd))
            obtain ⟨e, he, rfl⟩ := stores_iff.1 (hst d (List.mem_cons_self ..))
            obtain ⟨k, hk, hke⟩ := List.mem_map.1 (hq1.perm.mem_iff.2 he)
            refine ⟨k, ?_, by rw [← hke]; rfl⟩
            have := hq1.wf.find hk
            rw [hn1] at this
            rw [← hke]
            exact this
        have := prop_complete hnd cls _ _ _ extra hk hch hf2
        generalize propHashes s1.clauses s1.buffer (cls.map (lookupHash s) ++ extra)
          (assumeFalse lits { units := s1.units }) = pr at this
        obtain ⟨r, e⟩ := pr
        simp only at this
        subst this
        simp only [true_and]
        split <;> simp only [wp_bind, wp_modify, if_pos, wp_pure]

/-- `AtClause` steps with well-ordered hints are accepted. -/
theorem at_complete (env : Env) (ha : Accepting env) {s : St} (hp : Pre s) (red : Bool) (c : List Lit)
    (ht : ∀ l ∈ c, l.neg ∉ c) (hashes : List Nat)
    (hc : (∃ l ∈ c, IsTrue s.units l) ∨
      ∃ cls extra, hashes = cls.map (lookupHash s) ++ extra ∧ (∀ d ∈ cls, Stores s d) ∧
        UnitChain Lit.neg (fun l => l.neg ∈ c ∨ IsTrue s.units l) cls) :
    wp (checkAtClause env red c hashes) (fun _ _ => True) (fun _ _ => False) s := by
  have htf : (copyCanonical c).2 = false := by
    cases h : (copyCanonical c).2 with
    | false => rfl
    | true =>
      obtain ⟨l, h1, h2⟩ := (canonical_taut c).1 h
      exact absurd h2 (ht l h1)
  unfold checkAtClause
  simp only [htf, Bool.false_eq_true, if_false]
  have hnt := canonical_notaut htf
  have hcc : wp (checkClauseWithHashes env (copyCanonical c).1 hashes) (fun _ _ => True) (fun _ _ => False) s := by
    refine check_complete env hp hnt hashes ?_
    simpa only [mem_canonical] using hc
  rw [wp_bind]
  refine wp_mono (wp_and (check_eff env hp hnt hashes) hcc) ?_ (fun _ _ h => h.2)
  rintro _ s1 ⟨⟨hq, -⟩, -⟩
  rw [wp_bind]
  refine wp_mono (store_eff (hq.toSame.pre hp) _ (canonical_ssorted c) hnt red) ?_ (fun _ _ h => h)
  rintro ⟨id, res⟩ s2 hst
  have hem : ∀ (st : CheckedStep) (s : St), (∀ s, transcriptStep s st ≠ none) →
      wp (emit env st) (fun _ _ => True) (fun _ _ => False) s := by
    intro st s h
    obtain ⟨s', h'⟩ := emit_ok (env := env) (st := st) (s := s) ha (fun _ => h s)
    unfold wp
    rw [h']; trivial
  have hfin : ∀ s3 : St, wp (match res with
      | .new => do
        let s ← getSt
        emit env (.atClause id red (copyCanonical c).1 s.traceIds)
      | .newlyIrredundant => emit env (.makeIrredundant id (copyCanonical c).1)
      | .duplicate => pure ()) (fun _ _ => True) (fun _ _ => False) s3 := by
    intro s3
    cases res with
    | new => simp only [wp_bind, wp_get]; exact hem _ _ (by intro s; simp [transcriptStep])
    | newlyIrredundant => exact hem _ _ (by intro s; simp [transcriptStep])
    | duplicate => simp only [wp_pure]
  cases red <;> simp only [wp_bind, wp_modify, wp_pure, Bool.not_true, Bool.not_false, if_true, Bool.false_eq_true, if_false] <;> exact hfin _

/-- `FailedAssumptions` steps with well-ordered hints are accepted. -/
theorem failed_complete (env : Env) (ha : Accepting env) {s : St} (hp : Pre s)
    (hsort : SSorted s.assumptions) (core : List Lit) (hspell : env.hasTranscript = true → Spell s core) (hsub : ∀ l ∈ core, l ∈ s.assumptions) (hashes : List Nat)
    (hc : (∃ l ∈ core, l.neg ∈ core ∨ IsTrue s.units l.neg) ∨
      ∃ cls extra, hashes = cls.map (lookupHash s) ++ extra ∧ (∀ d ∈ cls, Stores s d) ∧
        UnitChain Lit.neg (fun l => l ∈ core ∨ IsTrue s.units l) cls) :
    wp (checkFailedAssumptions env core hashes) (fun _ _ => True) (fun _ _ => False) s := by
  have hem : ∀ (ids : List Nat) (s' : St), Keep s s' →
      wp (emit env (.failedAssumptions (copyCanonical core).1 ids)) (fun _ _ => True) (fun _ _ => False) s' := by
    intro ids s' hk
    obtain ⟨s', h'⟩ := emit_ok (env := env) (st := .failedAssumptions (copyCanonical core).1 ids) (s := s') ha (fun h => by
      have : Spell s' (copyCanonical core).1 := fun l hl => (hspell h).keep hk l (mem_canonical.1 hl)
      simpa [transcriptStep] using this.map)
    unfold wp
    rw [h']; trivial
  unfold checkFailedAssumptions
  simp only [wp_bind, wp_get]
  have h1 : isSubset (copyCanonical core).1 s.assumptions false = true := by
    unfold isSubset
    rw [isSubsetLoop_spec (canonical_ssorted core) hsort]
    exact ⟨fun l hl => hsub l (mem_canonical.1 hl), Or.inl rfl⟩
  rw [if_neg (by rw [h1]; simp)]
  cases hd : (copyCanonical core).2 with
  | true => simp only [if_true, wp_bind, wp_modify, wp_get]; exact hem _ _ (Keep.of ⟨rfl, rfl, rfl, rfl, rfl, rfl, rfl⟩)
  | false =>
    simp only [Bool.false_eq_true, if_false, wp_bind, wp_get]
    have hnt := canonical_notaut hd
    refine wp_mono (wp_keep (check_complete env hp ?_ hashes ?_) (keep_check env _ _)) (fun _ s' h => hem _ _ h.2) (fun _ _ h => h)
    · intro l hl hl'
      obtain ⟨m, hm, rfl⟩ := List.mem_map.1 hl
      obtain ⟨k, hk, hkm⟩ := List.mem_map.1 hl'
      have := Lit.neg_inj hkm
      subst this
      exact hnt m hm hk
    · rcases hc with ⟨l, hl, h | h⟩ | ⟨cls, extra, h1, h2, h3⟩
      · exact absurd (mem_canonical.2 h) (hnt l (mem_canonical.2 hl))
      · exact Or.inl ⟨l.neg, List.mem_map_of_mem (mem_canonical.2 hl), h⟩
      · refine Or.inr ⟨cls, extra, h1, h2, ?_⟩
        have : (fun l : Lit => l.neg ∈ (copyCanonical core).1.map Lit.neg ∨ IsTrue s.units l) =
            (fun l => l ∈ core ∨ IsTrue s.units l) := by
          funext l
          congr 1
          rw [List.mem_map]
          apply propext
          constructor
          · rintro ⟨m, hm, h⟩
            rw [← Lit.neg_inj h]
            exact mem_canonical.1 hm
          · intro h; exact ⟨l, mem_canonical.2 h, rfl⟩
        rw [this]
        exact h3

end Varisat.Checker
