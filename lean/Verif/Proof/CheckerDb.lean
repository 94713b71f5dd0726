import Verif.Model.Checker
import Verif.Proof.Sorted
import Mathlib.Tactic.Ring
import Mathlib.Data.List.Perm.Basic
import Mathlib.Data.List.Nodup
/-! The checker's clause database: abstraction to a list of entries. -/
namespace Varisat.Checker

/-- A stored clause as seen from outside. -/
structure Entry where
  id : Nat
  irred : Nat
  red : Nat
  lits : List Lit
deriving DecidableEq, Repr

def entryOf (buffer : List Lit) (c : Clause) : Entry := ⟨c.id, c.irred, c.red, c.lits.slice buffer⟩

/-- All clauses of the map. -/
def flat (m : Buckets) : List Clause := m.flatMap (·.2)

/-- All stored clauses. -/
def ents (buffer : List Lit) (m : Buckets) : List Entry := (flat m).map (entryOf buffer)

/-! ### Literal slices -/

/-- The clause's literals lie inside the buffer. -/
structure ClauseOk (buffer : List Lit) (c : ClauseLits) : Prop where
  inl : c.inline.length = 3
  inBuf : c.length > 3 → c.inline.getD 0 0 + c.length ≤ buffer.length

theorem slice_append {buffer x : List Lit} {c : ClauseLits} (h : ClauseOk buffer c) :
    c.slice (buffer ++ x) = c.slice buffer := by
  unfold ClauseLits.slice
  split
  · rename_i hl
    have := h.inBuf hl
    rw [List.drop_append_of_le_length (by omega), List.take_append_of_le_length (by
      rw [List.length_drop]; omega)]
  · rfl

theorem ok_append {buffer x : List Lit} {c : ClauseLits} (h : ClauseOk buffer c) :
    ClauseOk (buffer ++ x) c :=
  ⟨h.inl, fun hl => by have := h.inBuf hl; rw [List.length_append]; omega⟩

theorem slice_length {buffer : List Lit} {c : ClauseLits} (h : ClauseOk buffer c) :
    (c.slice buffer).length = c.length := by
  unfold ClauseLits.slice
  split
  · rename_i hl
    have := h.inBuf hl
    rw [List.length_take, List.length_drop]; omega
  · have := h.inl
    rw [List.length_map, List.length_take]; omega

theorem new_spec (lits buffer : List Lit) :
    ∃ x, (ClauseLits.new lits buffer).2 = buffer ++ x ∧
      (ClauseLits.new lits buffer).1.slice (buffer ++ x) = lits ∧
      ClauseOk (buffer ++ x) (ClauseLits.new lits buffer).1 ∧
      x.length = (ClauseLits.new lits buffer).1.bufferUsed ∧
      (ClauseLits.new lits buffer).1.length = lits.length := by
  unfold ClauseLits.new
  split
  · rename_i hl
    refine ⟨lits, rfl, ?_, ⟨rfl, ?_⟩, ?_, rfl⟩
    · simp only [ClauseLits.slice, hl, if_true, List.getD_cons_zero]
      simp
    · intro _; simp
    · simp [ClauseLits.bufferUsed, hl]
  · rename_i hl
    refine ⟨[], by simp, ?_, ⟨?_, ?_⟩, ?_, rfl⟩
    · simp only [ClauseLits.slice, hl, if_false]
      rw [List.take_append_of_le_length (by simp), List.take_of_length_le (by simp), List.map_map]
      conv => rhs; rw [← List.map_id lits]
      rfl
    · simp; omega
    · intro h; simp at h; omega
    · simp only [ClauseLits.bufferUsed, hl, if_false]; rfl

/-! ### Buckets -/

abbrev keys (m : Buckets) : List Nat := m.map Prod.fst

theorem removeBucket_cons (m : Buckets) (k h : Nat) (cs) :
    removeBucket ((k, cs) :: m) h = if k = h then removeBucket m h else (k, cs) :: removeBucket m h := by
  unfold removeBucket
  by_cases hk : k = h
  · simp [hk]
  · simp [hk]

theorem removeBucket_notMem {m : Buckets} {h : Nat} (hm : h ∉ keys m) : removeBucket m h = m := by
  unfold removeBucket
  rw [List.filter_eq_self]
  intro b hb
  simp only [bne_iff_ne, ne_eq]
  rintro rfl
  exact hm (List.mem_map_of_mem hb)

theorem bucket_notMem {m : Buckets} {h : Nat} (hm : h ∉ keys m) : bucket m h = [] := by
  induction m with
  | nil => rfl
  | cons b m ih =>
    obtain ⟨k, cs⟩ := b
    simp only [List.map_cons, List.mem_cons, not_or] at hm
    simp only [bucket]
    rw [if_neg (fun e => hm.1 e.symm), ih hm.2]

theorem setBucket_perm {m : Buckets} (hk : (keys m).Nodup) (h : Nat) (cs : List Clause) :
    (setBucket m h cs).Perm ((h, cs) :: removeBucket m h) := by
  induction m with
  | nil => simp [setBucket, removeBucket]
  | cons b m ih =>
    obtain ⟨k, ds⟩ := b
    simp only [List.map_cons, List.nodup_cons] at hk
    rw [removeBucket_cons]
    simp only [setBucket]
    split
    · rename_i e; subst e
      rw [removeBucket_notMem hk.1]
    · refine (List.Perm.cons _ (ih hk.2)).trans (List.Perm.swap ..)

theorem flat_perm {m m' : Buckets} (h : m.Perm m') : (flat m).Perm (flat m') := h.flatMap_right _

theorem flat_bucket {m : Buckets} (hk : (keys m).Nodup) (h : Nat) :
    (flat m).Perm (bucket m h ++ flat (removeBucket m h)) := by
  induction m with
  | nil => simp [flat, bucket, removeBucket]
  | cons b m ih =>
    obtain ⟨k, ds⟩ := b
    simp only [List.map_cons, List.nodup_cons] at hk
    rw [removeBucket_cons]
    simp only [bucket]
    split
    · rename_i e; subst e
      rw [removeBucket_notMem hk.1]; simp [flat]
    · simp only [flat, List.flatMap_cons]
      refine ((ih hk.2).append_left ds).trans ?_
      unfold flat
      rw [← List.append_assoc, ← List.append_assoc]
      exact List.Perm.append_right _ List.perm_append_comm

theorem mem_bucket {m : Buckets} {h : Nat} {c : Clause} (hc : c ∈ bucket m h) :
    ∃ b ∈ m, b.1 = h ∧ c ∈ b.2 := by
  induction m with
  | nil => simp [bucket] at hc
  | cons b m ih =>
    obtain ⟨k, ds⟩ := b
    simp only [bucket] at hc
    split at hc
    · exact ⟨_, List.mem_cons_self .., by assumption, hc⟩
    · obtain ⟨b, h1, h2⟩ := ih hc
      exact ⟨b, List.mem_cons_of_mem _ h1, h2⟩

theorem bucket_of_mem {m : Buckets} (hk : (keys m).Nodup) {b : Nat × List Clause} (hb : b ∈ m) :
    bucket m b.1 = b.2 := by
  induction m with
  | nil => simp at hb
  | cons d m ih =>
    obtain ⟨k, ds⟩ := d
    simp only [List.map_cons, List.nodup_cons] at hk
    simp only [bucket]
    rcases List.mem_cons.1 hb with rfl | hb
    · simp
    · have hne : ¬ k = b.1 := fun e => hk.1 (e ▸ List.mem_map_of_mem hb)
      rw [if_neg hne, ih hk.2 hb]

theorem mem_flat {m : Buckets} {c : Clause} : c ∈ flat m ↔ ∃ b ∈ m, c ∈ b.2 := by
  simp [flat, List.mem_flatMap]

theorem keys_setBucket {m : Buckets} (hk : (keys m).Nodup) (h : Nat) (cs) :
    (keys (setBucket m h cs)).Nodup := by
  have := (setBucket_perm hk h cs).map Prod.fst
  unfold keys
  rw [this.nodup_iff, List.map_cons, List.nodup_cons]
  refine ⟨?_, ?_⟩
  · simp only [List.mem_map, removeBucket, List.mem_filter]
    rintro ⟨b, ⟨-, h1⟩, h2⟩
    simp [h2] at h1
  · exact hk.sublist (List.filter_sublist.map _)

theorem keys_removeBucket {m : Buckets} (hk : (keys m).Nodup) (h : Nat) :
    (keys (removeBucket m h)).Nodup := hk.sublist (List.filter_sublist.map _)

/-! ### Well-formed databases -/

/-- Literal lists of stored clauses. -/
structure LitsOk (lits : List Lit) : Prop where
  sorted : SSorted lits
  len : 2 ≤ lits.length
  notaut : ∀ l ∈ lits, l.neg ∉ lits

structure WFdb (buffer : List Lit) (bits : Nat) (names : Nat → Option Nat) (m : Buckets) : Prop where
  keys : (keys m).Nodup
  ok : ∀ b ∈ m, ∀ c ∈ b.2, ClauseOk buffer c.lits ∧ hashOf bits names (c.lits.slice buffer) = b.1
  ent : ∀ e ∈ ents buffer m, LitsOk e.lits ∧ 0 < e.irred + e.red
  nodup : ((ents buffer m).map (·.lits)).Nodup

theorem WFdb.empty (bits names) : WFdb [] bits names [] :=
  ⟨by simp, by simp, by simp [ents, flat], by simp [ents, flat]⟩

/-- An entry with given literals is in the bucket of its hash. -/
theorem WFdb.find {buffer bits names m} (h : WFdb buffer bits names m) {c : Clause} (hc : c ∈ flat m) :
    c ∈ bucket m (hashOf bits names (c.lits.slice buffer)) := by
  obtain ⟨b, hb, hcb⟩ := mem_flat.1 hc
  rw [(h.ok b hb c hcb).2, bucket_of_mem h.keys hb]
  exact hcb

theorem WFdb.bucket_hash {buffer bits names m} (h : WFdb buffer bits names m) {c : Clause} {k : Nat}
    (hc : c ∈ bucket m k) : ClauseOk buffer c.lits ∧ hashOf bits names (c.lits.slice buffer) = k := by
  obtain ⟨b, hb, rfl, hcb⟩ := mem_bucket hc
  exact h.ok b hb c hcb

theorem mem_ents_bucket {buffer m k} {c : Clause} (hc : c ∈ bucket m k) :
    entryOf buffer c ∈ ents buffer m := by
  obtain ⟨b, hb, _, hcb⟩ := mem_bucket hc
  exact List.mem_map_of_mem (mem_flat.2 ⟨b, hb, hcb⟩)

theorem ents_bucket {m : Buckets} (hk : (keys m).Nodup) (buffer : List Lit) (h : Nat) :
    (ents buffer m).Perm ((bucket m h).map (entryOf buffer) ++ ents buffer (removeBucket m h)) := by
  unfold ents
  rw [← List.map_append]
  exact (flat_bucket hk h).map _

theorem ents_setBucket {m : Buckets} (hk : (keys m).Nodup) (buffer : List Lit) (h : Nat) (cs) :
    (ents buffer (setBucket m h cs)).Perm
      (cs.map (entryOf buffer) ++ ents buffer (removeBucket m h)) := by
  unfold ents
  refine ((flat_perm (setBucket_perm hk h cs)).map _).trans ?_
  rw [← List.map_append]
  simp [flat]

/-- Rebuilding well-formedness after replacing one bucket. -/
theorem WFdb.setBucket {buffer bits names m} (h : WFdb buffer bits names m) (k : Nat) (cs : List Clause)
    (x : List Lit)
    (hok : ∀ c ∈ cs, ClauseOk (buffer ++ x) c.lits ∧
      hashOf bits names (c.lits.slice (buffer ++ x)) = k)
    (hent : ∀ e ∈ ents (buffer ++ x) (Checker.setBucket m k cs), LitsOk e.lits ∧ 0 < e.irred + e.red)
    (hnd : ((ents (buffer ++ x) (Checker.setBucket m k cs)).map (·.lits)).Nodup) :
    WFdb (buffer ++ x) bits names (Checker.setBucket m k cs) := by
  refine ⟨keys_setBucket h.keys _ _, ?_, hent, hnd⟩
  intro b hb c hc
  have hb := (setBucket_perm h.keys k cs).mem_iff.1 hb
  rcases List.mem_cons.1 hb with rfl | hb
  · exact hok c hc
  · have hb' := (List.mem_filter.1 hb).1
    have := h.ok b hb' c hc
    exact ⟨ok_append this.1, by rw [slice_append this.1]; exact this.2⟩

theorem ents_append {buffer bits names m} (h : WFdb buffer bits names m) (x : List Lit) :
    ents (buffer ++ x) m = ents buffer m := by
  unfold ents
  apply List.map_congr_left
  intro c hc
  obtain ⟨b, hb, hcb⟩ := mem_flat.1 hc
  simp only [entryOf, slice_append (h.ok b hb c hcb).1]

theorem sublist_flatMap {α β : Type} {f : α → List β} {l l' : List α} (h : l.Sublist l') :
    (l.flatMap f).Sublist (l'.flatMap f) := by
  induction h with
  | slnil => simp
  | cons a _ ih => rw [List.flatMap_cons]; exact ih.trans (List.sublist_append_right _ _)
  | cons_cons a _ ih => rw [List.flatMap_cons, List.flatMap_cons]; exact ih.append_left _

theorem WFdb.removeBucket {buffer bits names m} (h : WFdb buffer bits names m) (k : Nat) :
    WFdb buffer bits names (Checker.removeBucket m k) := by
  have hsub : (Checker.removeBucket m k).Sublist m := List.filter_sublist
  have hs2 : (ents buffer (Checker.removeBucket m k)).Sublist (ents buffer m) := by
    unfold ents flat
    exact (sublist_flatMap hsub).map _
  exact ⟨keys_removeBucket h.keys k, fun b hb => h.ok b (hsub.subset hb),
    fun e he => h.ent e (hs2.subset he), h.nodup.sublist (hs2.map _)⟩

/-! ### Storing -/

theorem bump_some {buffer lits red cs cs' id res}
    (h : bumpCandidate buffer lits red cs = some (cs', id, res)) :
    ∃ pre c post, cs = pre ++ c :: post ∧ c.lits.slice buffer = lits ∧ c.id = id ∧
      (∀ d ∈ pre, d.lits.slice buffer ≠ lits) ∧
      cs' = pre ++ { c with
        irred := c.irred + (if red then 0 else 1)
        red := c.red + (if red then 1 else 0) } :: post ∧
      res = (if !red && c.irred == 0 then StoreResult.newlyIrredundant else .duplicate) := by
  induction cs generalizing cs' with
  | nil => simp [bumpCandidate] at h
  | cons c cs ih =>
    unfold bumpCandidate at h
    split at h
    · rename_i he
      simp only [Option.some.injEq, Prod.mk.injEq] at h
      obtain ⟨h1, h2, h3⟩ := h
      refine ⟨[], c, cs, rfl, he, h2, by simp, ?_, h3.symm⟩
      rw [← h1]
      cases red <;> simp
    · rename_i hne
      split at h
      · rename_i x r hb
        simp only [Option.some.injEq, Prod.mk.injEq] at h
        obtain ⟨h1, h2⟩ := h
        obtain ⟨pre, c0, post, e1, e2, e3, e4, e5, e6⟩ := ih (cs' := x) (by rw [hb, h2])
        refine ⟨c :: pre, c0, post, by rw [e1]; rfl, e2, e3, ?_, by rw [← h1, e5]; rfl, e6⟩
        intro d hd
        rcases List.mem_cons.1 hd with rfl | hd
        · exact hne
        · exact e4 d hd
      · simp at h

theorem bump_none {buffer lits red cs} (h : bumpCandidate buffer lits red cs = none) :
    ∀ c ∈ cs, c.lits.slice buffer ≠ lits := by
  induction cs with
  | nil => simp
  | cons c cs ih =>
    unfold bumpCandidate at h
    split at h
    · simp at h
    · rename_i hne
      split at h
      · simp at h
      · rename_i hb
        intro d hd
        rcases List.mem_cons.1 hd with rfl | hd
        · exact hne
        · exact ih hb d hd

/-- Outcome of storing a clause of at least two literals, on entries. -/
inductive StoreEff (red : Bool) (lits : List Lit) (nextId : Nat) (es es' : List Entry) :
    Nat → StoreResult → Prop
  | found (e : Entry) (R : List Entry) (hl : e.lits = lits) (h : es.Perm (e :: R))
      (h' : es'.Perm ({ e with
        irred := e.irred + (if red then 0 else 1)
        red := e.red + (if red then 1 else 0) } :: R)) :
      StoreEff red lits nextId es es' e.id
        (if !red && e.irred == 0 then .newlyIrredundant else .duplicate)
  | fresh (hn : ∀ e ∈ es, e.lits ≠ lits)
      (h' : es'.Perm (⟨nextId, if red then 0 else 1, if red then 1 else 0, lits⟩ :: es)) :
      StoreEff red lits nextId es es' nextId .new

theorem perm_mid {α : Type} (a : α) (p q : List α) : (p ++ a :: q).Perm (a :: (p ++ q)) :=
  List.perm_middle

theorem storeLong_spec {s : St} (hw : WFdb s.buffer s.hashBits s.names s.clauses) {lits : List Lit}
    (hl : LitsOk lits) (red : Bool) :
    ∃ id res m x n cc, storeLong lits red s =
      .ok (id, res) { s with
        clauses := m
        buffer := s.buffer ++ x
        nextId := n
        clauseCount := cc } ∧
      WFdb (s.buffer ++ x) s.hashBits s.names m ∧
      StoreEff red lits s.nextId (ents s.buffer s.clauses) (ents (s.buffer ++ x) m) id res ∧
      (res = .new → n = s.nextId + 1 ∧ cc = countUp lits s.clauseCount) ∧
      (res ≠ .new → n = s.nextId ∧ cc = s.clauseCount ∧ x = []) := by
  unfold storeLong
  simp only
  generalize hk : hashOf s.hashBits s.names lits = k
  have hperm := ents_bucket hw.keys s.buffer k
  split
  · rename_i cs id res hb
    obtain ⟨pre, c, post, e1, e2, e3, e4, e5, e6⟩ := bump_some hb
    have hE : StoreEff red lits s.nextId (ents s.buffer s.clauses)
        (ents s.buffer (setBucket s.clauses k cs)) id res := by
      rw [e6, ← e3]
      refine StoreEff.found (entryOf s.buffer c)
        ((pre ++ post).map (entryOf s.buffer) ++ ents s.buffer (removeBucket s.clauses k)) e2 ?_ ?_
      · refine hperm.trans ?_
        rw [e1, ← List.cons_append, ← List.map_cons]
        exact ((perm_mid c pre post).map _).append_right _
      · refine (ents_setBucket hw.keys s.buffer k cs).trans ?_
        rw [e5, ← List.cons_append]
        refine List.Perm.append_right _ ?_
        exact ((perm_mid _ pre post).map (entryOf s.buffer))
    refine ⟨id, res, setBucket s.clauses k cs, [], s.nextId, s.clauseCount, ?_, ?_, ?_, ?_, ?_⟩
    · rw [List.append_nil]
    · apply hw.setBucket
      · intro d hd
        rw [e5] at hd
        have key : ∀ d' ∈ bucket s.clauses k, ClauseOk (s.buffer ++ []) d'.lits ∧
            hashOf s.hashBits s.names (d'.lits.slice (s.buffer ++ [])) = k := by
          intro d' hd'; rw [List.append_nil]; exact hw.bucket_hash hd'
        rcases List.mem_append.1 hd with hd | hd
        · exact key d (by rw [e1]; exact List.mem_append_left _ hd)
        · rcases List.mem_cons.1 hd with rfl | hd
          · exact key c (by rw [e1]; simp)
          · exact key d (by rw [e1]; simp [hd])
      · rw [List.append_nil]
        cases hE with
        | found e R hl' h h' =>
          intro f hf
          rw [h'.mem_iff] at hf
          rcases List.mem_cons.1 hf with rfl | hf
          · have := hw.ent e (h.mem_iff.2 (by simp))
            exact ⟨this.1, by simp only; omega⟩
          · exact hw.ent f (h.mem_iff.2 (by simp [hf]))
        | fresh hn h' => exfalso; simp at e6; split at e6 <;> simp at e6
      · rw [List.append_nil]
        cases hE with
        | found e R hl' h h' =>
          rw [(h'.map _).nodup_iff, List.map_cons]
          have := hw.nodup
          rw [(h.map _).nodup_iff, List.map_cons] at this
          exact this
        | fresh hn h' => exfalso; simp at e6; split at e6 <;> simp at e6
    · rw [List.append_nil]; exact hE
    · intro h; rw [e6] at h; split at h <;> simp at h
    · intro _; exact ⟨rfl, rfl, rfl⟩
  · rename_i hb
    have hnone := bump_none hb
    obtain ⟨x, hx1, hx2, hx3, hx4, -⟩ := new_spec lits s.buffer
    have hfresh : ∀ e ∈ ents s.buffer s.clauses, e.lits ≠ lits := by
      intro e he hel
      obtain ⟨c, hc, rfl⟩ := List.mem_map.1 he
      have h1 := hw.find hc
      have hel : c.lits.slice s.buffer = lits := hel
      rw [hel, hk] at h1
      exact hnone c h1 hel
    generalize hn : ClauseLits.new lits s.buffer = nw at hx1 hx2 hx3 hx4
    obtain ⟨cl, nb⟩ := nw
    simp only at hx1 hx2 hx3 hx4
    subst hx1
    have hE : (ents (s.buffer ++ x) (setBucket s.clauses k (bucket s.clauses k ++
        [{ id := s.nextId, irred := if red then 0 else 1, red := if red then 1 else 0, lits := cl }]))).Perm
        (⟨s.nextId, if red then 0 else 1, if red then 1 else 0, lits⟩ :: ents s.buffer s.clauses) := by
      refine (ents_setBucket hw.keys _ k _).trans ?_
      rw [ents_append (hw.removeBucket k), List.map_append]
      have e1 : (bucket s.clauses k).map (entryOf (s.buffer ++ x)) =
          (bucket s.clauses k).map (entryOf s.buffer) := by
        apply List.map_congr_left
        intro c hc
        simp only [entryOf, slice_append (hw.bucket_hash hc).1]
      rw [e1]
      simp only [List.map_cons, List.map_nil, entryOf, hx2, List.append_assoc, List.singleton_append]
      refine (perm_mid _ _ _).trans (List.Perm.cons _ hperm.symm)
    refine ⟨s.nextId, .new, _, x, s.nextId + 1, countUp lits s.clauseCount, rfl, ?_, ?_, ?_, ?_⟩
    · apply hw.setBucket
      · intro d hd
        rcases List.mem_append.1 hd with hd | hd
        · have := hw.bucket_hash hd
          exact ⟨ok_append this.1, by rw [slice_append this.1]; exact this.2⟩
        · simp only [List.mem_singleton] at hd
          subst hd
          exact ⟨hx3, by simp only [hx2]; exact hk⟩
      · intro f hf
        rw [hE.mem_iff] at hf
        rcases List.mem_cons.1 hf with rfl | hf
        · exact ⟨hl, by cases red <;> simp⟩
        · exact hw.ent f hf
      · rw [(hE.map _).nodup_iff, List.map_cons, List.nodup_cons]
        refine ⟨?_, hw.nodup⟩
        simp only [List.mem_map, not_exists, not_and]
        exact hfresh
    · exact StoreEff.fresh hfresh hE
    · intro _; exact ⟨rfl, rfl⟩
    · intro h; exact absurd rfl h

/-! ### Deleting -/

theorem drop_spec {buffer lits red cs cs' r} (h : dropCandidate buffer lits red cs = (cs', r)) :
    (r = none ∧ cs' = cs ∧ ∀ c ∈ cs, c.lits.slice buffer ≠ lits) ∨
    ∃ pre c post, cs = pre ++ c :: post ∧ c.lits.slice buffer = lits ∧
      ((r = some none ∧ cs' = cs ∧ (if red then c.red else c.irred) = 0) ∨
       ((if red then c.red else c.irred) ≠ 0 ∧ ∃ c' : Clause, c' = { c with
            irred := c.irred - (if red then 0 else 1)
            red := c.red - (if red then 1 else 0) } ∧
          ((c'.irred = 0 ∧ c'.red = 0 ∧ cs' = pre ++ post ∧
              r = some (some (c.id, .removed, c.lits.bufferUsed))) ∨
           (¬ (c'.irred = 0 ∧ c'.red = 0) ∧ cs' = pre ++ c' :: post ∧
              r = some (some (c.id, if !red && c'.irred == 0 then .newlyRedundant else .unchanged, 0)))))) := by
  induction cs generalizing cs' r with
  | nil =>
    simp only [dropCandidate, Prod.mk.injEq] at h
    exact Or.inl ⟨h.2.symm, h.1.symm, by simp⟩
  | cons c cs ih =>
    unfold dropCandidate at h
    split at h
    · rename_i hne
      generalize hd : dropCandidate buffer lits red cs = dd at h
      obtain ⟨cs1, r1⟩ := dd
      simp only [Prod.mk.injEq] at h
      obtain ⟨h1, h2⟩ := h
      subst h1; subst h2
      rcases ih hd with ⟨e1, e2, e3⟩ | ⟨pre, c0, post, e1, e2, e3⟩
      · refine Or.inl ⟨e1, by rw [e2], ?_⟩
        intro d hd'
        rcases List.mem_cons.1 hd' with rfl | hd'
        · exact hne
        · exact e3 d hd'
      · refine Or.inr ⟨c :: pre, c0, post, by rw [e1]; rfl, e2, ?_⟩
        rcases e3 with ⟨f1, f2, f3⟩ | ⟨f1, c', f2, f3⟩
        · exact Or.inl ⟨f1, by rw [f2], f3⟩
        · refine Or.inr ⟨f1, c', f2, ?_⟩
          rcases f3 with ⟨g1, g2, g3, g4⟩ | ⟨g1, g2, g3⟩
          · exact Or.inl ⟨g1, g2, by rw [g3]; rfl, g4⟩
          · exact Or.inr ⟨g1, by rw [g2]; rfl, g3⟩
    · rename_i he
      have he : c.lits.slice buffer = lits := by simpa using he
      refine Or.inr ⟨[], c, cs, rfl, he, ?_⟩
      cases red
      · simp only [Bool.false_eq_true, if_false] at h ⊢
        split at h
        · rename_i hz
          simp only [Prod.mk.injEq] at h
          exact Or.inl ⟨h.2.symm, h.1.symm, hz⟩
        · rename_i hz
          refine Or.inr ⟨hz, _, rfl, ?_⟩
          simp only [Nat.sub_zero]
          split at h
          · rename_i hh
            simp only [Prod.mk.injEq] at h
            exact Or.inl ⟨hh.1, hh.2, h.1.symm, h.2.symm⟩
          · rename_i hh
            refine Or.inr ⟨hh, ?_⟩
            split at h
            · rename_i h3
              simp only [Prod.mk.injEq] at h
              exact ⟨h.1.symm, by rw [if_pos h3]; exact h.2.symm⟩
            · rename_i h3
              simp only [Prod.mk.injEq] at h
              exact ⟨h.1.symm, by rw [if_neg h3]; exact h.2.symm⟩
      · simp only [if_true] at h ⊢
        split at h
        · rename_i hz
          simp only [Prod.mk.injEq] at h
          exact Or.inl ⟨h.2.symm, h.1.symm, hz⟩
        · rename_i hz
          refine Or.inr ⟨hz, _, rfl, ?_⟩
          simp only [Nat.sub_zero]
          split at h
          · rename_i hh
            simp only [Prod.mk.injEq] at h
            exact Or.inl ⟨hh.1, hh.2, h.1.symm, h.2.symm⟩
          · rename_i hh
            refine Or.inr ⟨hh, ?_⟩
            split at h
            · rename_i h3
              simp only [Prod.mk.injEq] at h
              exact ⟨h.1.symm, by rw [if_pos h3]; exact h.2.symm⟩
            · rename_i h3
              simp only [Prod.mk.injEq] at h
              exact ⟨h.1.symm, by rw [if_neg h3]; exact h.2.symm⟩

/-! ### Garbage collection and rehashing -/

theorem gcBucket_spec (old : List Lit) (cs : List Clause) (new : List Lit) :
    ∃ x, (gcBucket old cs new).2 = new ++ x ∧
      (∀ c ∈ (gcBucket old cs new).1, ClauseOk (new ++ x) c.lits) ∧
      (gcBucket old cs new).1.map (entryOf (new ++ x)) = cs.map (entryOf old) := by
  induction cs generalizing new with
  | nil => exact ⟨[], by simp [gcBucket], by simp [gcBucket], by simp [gcBucket]⟩
  | cons c cs ih =>
    obtain ⟨x, h1, h2, h3, -, -⟩ := new_spec (c.lits.slice old) new
    simp only [gcBucket]
    generalize ClauseLits.new (c.lits.slice old) new = nw at h1 h2 h3
    obtain ⟨cl, nb⟩ := nw
    simp only at h1 h2 h3
    subst h1
    obtain ⟨y, g1, g2, g3⟩ := ih (new ++ x)
    simp only
    generalize gcBucket old cs (new ++ x) = gg at g1 g2 g3
    obtain ⟨cs', nb⟩ := gg
    simp only at g1 g2 g3
    subst g1
    refine ⟨x ++ y, by rw [List.append_assoc], ?_, ?_⟩
    · intro d hd
      rw [← List.append_assoc]
      rcases List.mem_cons.1 hd with rfl | hd
      · exact ok_append h3
      · exact g2 d hd
    · rw [← List.append_assoc, List.map_cons, List.map_cons, g3]
      simp only [entryOf, slice_append h3, h2]

theorem gcBuckets_spec (old : List Lit) (m : Buckets) (new : List Lit) :
    ∃ x, (gcBuckets old m new).2 = new ++ x ∧
      (gcBuckets old m new).1.map Prod.fst = m.map Prod.fst ∧
      (∀ b ∈ (gcBuckets old m new).1, (∀ c ∈ b.2, ClauseOk (new ++ x) c.lits) ∧
        ∃ b0 ∈ m, b0.1 = b.1 ∧ b.2.map (entryOf (new ++ x)) = b0.2.map (entryOf old)) ∧
      ents (new ++ x) (gcBuckets old m new).1 = ents old m := by
  induction m generalizing new with
  | nil => exact ⟨[], by simp [gcBuckets], by simp [gcBuckets], by simp [gcBuckets],
      by simp [gcBuckets, ents, flat]⟩
  | cons b m ih =>
    obtain ⟨k, cs⟩ := b
    obtain ⟨x, h1, h2, h3⟩ := gcBucket_spec old cs new
    simp only [gcBuckets]
    generalize gcBucket old cs new = nw at h1 h2 h3
    obtain ⟨cs', nb⟩ := nw
    simp only at h1 h2 h3
    subst h1
    obtain ⟨y, g1, g2, g3, g4⟩ := ih (new ++ x)
    simp only
    generalize gcBuckets old m (new ++ x) = gg at g1 g2 g3 g4
    obtain ⟨m', nb⟩ := gg
    simp only at g1 g2 g3 g4
    subst g1
    have h3' : cs'.map (entryOf (new ++ x ++ y)) = cs.map (entryOf old) := by
      rw [← h3]
      apply List.map_congr_left
      intro d hd
      simp only [entryOf, slice_append (h2 d hd)]
    refine ⟨x ++ y, by rw [List.append_assoc], by simp [g2], ?_, ?_⟩
    · rw [← List.append_assoc]
      intro b hb
      rcases List.mem_cons.1 hb with rfl | hb
      · exact ⟨fun d hd => ok_append (h2 d hd), (k, cs), by simp, rfl, h3'⟩
      · obtain ⟨e1, b0, e2, e3⟩ := g3 b hb
        exact ⟨e1, b0, by simp [e2], e3⟩
    · rw [← List.append_assoc]
      simp only [ents, flat, List.flatMap_cons, List.map_append] at g4 ⊢
      rw [h3', g4]

theorem collectGarbage_spec (env : Env) {s : St} (hw : WFdb s.buffer s.hashBits s.names s.clauses) :
    ∃ m b g, collectGarbage env s = { s with
        clauses := m
        buffer := b
        garbage := g } ∧
      WFdb b s.hashBits s.names m ∧ (ents b m).Perm (ents s.buffer s.clauses) := by
  unfold collectGarbage
  split
  · exact ⟨s.clauses, s.buffer, s.garbage, rfl, hw, List.Perm.refl _⟩
  · obtain ⟨x, h1, h2, h3, h4⟩ := gcBuckets_spec s.buffer (env.iter s.clauses) []
    generalize gcBuckets s.buffer (env.iter s.clauses) [] = gg at h1 h2 h3 h4
    obtain ⟨m, nb⟩ := gg
    simp only at h1 h2 h3 h4
    have hp := env.iter_perm s.clauses
    have hE : (ents nb m).Perm (ents s.buffer s.clauses) := by
      rw [h1, h4]; exact (flat_perm hp).map _
    refine ⟨m, nb, 0, rfl, ?_, hE⟩
    refine ⟨?_, ?_, ?_, ?_⟩
    · unfold keys; rw [h2]; exact ((hp.map _).nodup_iff).2 hw.keys
    · intro b hb c hc
      rw [h1]
      obtain ⟨e1, b0, e2, e3, e4⟩ := h3 b hb
      refine ⟨e1 c hc, ?_⟩
      have : entryOf ([] ++ x) c ∈ b0.2.map (entryOf s.buffer) := by
        rw [← e4]; exact List.mem_map_of_mem hc
      obtain ⟨c0, hc0, he⟩ := List.mem_map.1 this
      have he' : c.lits.slice ([] ++ x) = c0.lits.slice s.buffer := by
        have := congrArg Entry.lits he; exact this.symm
      rw [he', ← e3]
      exact (hw.ok b0 (hp.mem_iff.1 e2) c0 hc0).2
    · intro e he; exact hw.ent e (hE.mem_iff.1 he)
    · exact ((hE.map _).nodup_iff).2 hw.nodup

theorem refill_spec (buffer : List Lit) (bits : Nat) (names : Nat → Option Nat) (L : List Clause)
    (m : Buckets) (hk : (keys m).Nodup)
    (hh : ∀ b ∈ m, ∀ c ∈ b.2, hashOf bits names (c.lits.slice buffer) = b.1) :
    let m' := L.foldl (fun m c =>
      setBucket m (hashOf bits names (c.lits.slice buffer))
        (bucket m (hashOf bits names (c.lits.slice buffer)) ++ [c])) m
    (keys m').Nodup ∧ (∀ b ∈ m', ∀ c ∈ b.2, hashOf bits names (c.lits.slice buffer) = b.1) ∧
      (flat m').Perm (flat m ++ L) := by
  induction L generalizing m with
  | nil => exact ⟨hk, hh, by simp⟩
  | cons c L ih =>
    simp only [List.foldl_cons]
    generalize hkk : hashOf bits names (c.lits.slice buffer) = k
    have hf : (flat (setBucket m k (bucket m k ++ [c]))).Perm (flat m ++ [c]) := by
      refine (flat_perm (setBucket_perm hk _ _)).trans ?_
      simp only [flat, List.flatMap_cons]
      refine (List.Perm.append_right _ List.perm_append_comm).trans ?_
      rw [List.append_assoc]
      refine (List.Perm.append_left _ (flat_bucket hk k).symm).trans ?_
      exact List.perm_append_comm
    obtain ⟨h1, h2, h3⟩ := ih (setBucket m k (bucket m k ++ [c])) (keys_setBucket hk _ _) (by
      intro b hb d hd
      have hb := (setBucket_perm hk _ _).mem_iff.1 hb
      rcases List.mem_cons.1 hb with rfl | hb
      · rcases List.mem_append.1 hd with hd | hd
        · obtain ⟨b, hb, e, hd⟩ := mem_bucket hd
          rw [← e]; exact hh b hb d hd
        · simp only [List.mem_singleton] at hd; rw [hd]; exact hkk
      · exact hh b (List.mem_filter.1 hb).1 d hd)
    refine ⟨h1, h2, h3.trans ?_⟩
    refine (List.Perm.append_right _ hf).trans ?_
    simp

/-- Rehashing needs no assumption on the old hash placement. -/
theorem rehash_spec (env : Env) {s : St} {bits0 names0}
    (hw : WFdb s.buffer bits0 names0 s.clauses) :
    ∃ m, rehash env s = { s with
        names := applyNames s.buffered s.names
        buffered := []
        rename := false
        clauses := m } ∧
      WFdb s.buffer s.hashBits (applyNames s.buffered s.names) m ∧
      (ents s.buffer m).Perm (ents s.buffer s.clauses) := by
  obtain ⟨h1, h2, h3⟩ := refill_spec s.buffer s.hashBits (applyNames s.buffered s.names)
    ((env.iter s.clauses).flatMap (·.2)) [] (by simp) (by simp)
  have hE : (ents s.buffer (rehash env s).clauses).Perm (ents s.buffer s.clauses) := by
    refine List.Perm.map _ (h3.trans ?_)
    simp only [flat, List.flatMap_nil, List.nil_append]
    exact flat_perm (env.iter_perm _)
  refine ⟨(rehash env s).clauses, rfl, ⟨h1, ?_, ?_, ?_⟩, hE⟩
  · intro b hb c hc
    refine ⟨?_, h2 b hb c hc⟩
    have hc' : c ∈ flat (rehash env s).clauses := mem_flat.2 ⟨b, hb, hc⟩
    have hc' := h3.mem_iff.1 hc'
    simp only [flat, List.flatMap_nil, List.nil_append] at hc'
    obtain ⟨b0, hb0, hc0⟩ := mem_flat.1 ((flat_perm (env.iter_perm s.clauses)).mem_iff.1 hc')
    exact (hw.ok b0 hb0 c hc0).1
  · intro e he; exact hw.ent e (hE.mem_iff.1 he)
  · exact ((hE.map _).nodup_iff).2 hw.nodup

/-! ### Deleting, continued -/

/-- Outcome of deleting a clause, on entries. -/
inductive DelEff (red : Bool) (lits : List Lit) (es es' : List Entry) : Nat → DeleteResult → Prop
  | gone (e : Entry) (R : List Entry) (hl : e.lits = lits) (h : es.Perm (e :: R))
      (hpos : (if red then e.red else e.irred) = 1) (hz : (if red then e.irred else e.red) = 0)
      (h' : es'.Perm R) : DelEff red lits es es' e.id .removed
  | kept (e : Entry) (R : List Entry) (hl : e.lits = lits) (h : es.Perm (e :: R))
      (hpos : 0 < (if red then e.red else e.irred)) (hnz : 1 < e.irred + e.red)
      (h' : es'.Perm ({ e with
        irred := e.irred - (if red then 0 else 1)
        red := e.red - (if red then 1 else 0) } :: R)) :
      DelEff red lits es es' e.id
        (if !red && e.irred - (if red then 0 else 1) == 0 then .newlyRedundant else .unchanged)

theorem DelEff.congr {red lits es es' es'' id r} (h : DelEff red lits es es' id r)
    (hp : es''.Perm es') : DelEff red lits es es'' id r := by
  cases h with
  | gone e R hl h hpos hz h' => exact .gone e R hl h hpos hz (hp.trans h')
  | kept e R hl h hpos hnz h' => exact .kept e R hl h hpos hnz (hp.trans h')

theorem bucket_replace {buffer : List Lit} {bits names m} (hw : WFdb buffer bits names m) (k : Nat)
    (cs : List Clause)
    (hok : ∀ c ∈ cs, ClauseOk buffer c.lits ∧ hashOf bits names (c.lits.slice buffer) = k)
    (m' : Buckets) (hm' : m' = if cs.isEmpty then removeBucket m k else setBucket m k cs)
    (hE : ∀ es : List Entry, es.Perm (cs.map (entryOf buffer) ++ ents buffer (removeBucket m k)) →
      (∀ e ∈ es, LitsOk e.lits ∧ 0 < e.irred + e.red) ∧ (es.map (·.lits)).Nodup) :
    WFdb buffer bits names m' ∧
      (ents buffer m').Perm (cs.map (entryOf buffer) ++ ents buffer (removeBucket m k)) := by
  subst hm'
  split
  · rename_i he
    have : cs = [] := by simpa using he
    subst this
    exact ⟨hw.removeBucket k, by simp⟩
  · have hp := ents_setBucket hw.keys buffer k cs
    refine ⟨?_, hp⟩
    have := hw.setBucket k cs [] (by simpa using hok) (by
      rw [List.append_nil]; exact (hE _ hp).1) (by rw [List.append_nil]; exact (hE _ hp).2)
    rwa [List.append_nil] at this

theorem deleteClause_spec (env : Env) {s : St} (hw : WFdb s.buffer s.hashBits s.names s.clauses)
    (lits : List Lit) (red : Bool) :
    (lits.length < 2 ∧ deleteClause env lits red s = .error (.checkFailed s.step .deleteUnit) s) ∨
    (2 ≤ lits.length ∧
      ((∃ m, deleteClause env lits red s = .error (.checkFailed s.step .deleteUnknown) { s with
            clauses := m } ∧
          (∀ e ∈ ents s.buffer s.clauses, e.lits ≠ lits) ∧
          WFdb s.buffer s.hashBits s.names m ∧ (ents s.buffer m).Perm (ents s.buffer s.clauses)) ∨
       (∃ m, deleteClause env lits red s = .error (.checkFailed s.step
            (if red then .deleteIsIrredundant else .deleteIsRedundant)) { s with clauses := m } ∧
          (∃ e ∈ ents s.buffer s.clauses, e.lits = lits ∧ (if red then e.red else e.irred) = 0) ∧
          WFdb s.buffer s.hashBits s.names m ∧ (ents s.buffer m).Perm (ents s.buffer s.clauses)) ∨
       (∃ id r m b g cc, deleteClause env lits red s = .ok (id, r) { s with
            clauses := m
            buffer := b
            garbage := g
            clauseCount := cc } ∧
          WFdb b s.hashBits s.names m ∧ DelEff red lits (ents s.buffer s.clauses) (ents b m) id r ∧
          cc = if r = .removed then countDown lits s.clauseCount else s.clauseCount))) := by
  unfold deleteClause
  simp only
  by_cases hlen : lits.length < 2
  · exact Or.inl ⟨hlen, by rw [if_pos hlen]; rfl⟩
  · refine Or.inr ⟨by omega, ?_⟩
    rw [if_neg hlen]
    generalize hk : hashOf s.hashBits s.names lits = k
    have hperm := ents_bucket hw.keys s.buffer k
    generalize hd : dropCandidate s.buffer lits red (bucket s.clauses k) = dd
    obtain ⟨cs, r⟩ := dd
    simp only
    generalize hm : (if cs.isEmpty then removeBucket s.clauses k else setBucket s.clauses k cs) = m
    have same : cs = bucket s.clauses k → WFdb s.buffer s.hashBits s.names m ∧
        (ents s.buffer m).Perm (ents s.buffer s.clauses) := by
      intro e
      have hp2 : (cs.map (entryOf s.buffer) ++ ents s.buffer (removeBucket s.clauses k)).Perm
          (ents s.buffer s.clauses) := by rw [e]; exact hperm.symm
      have := bucket_replace hw k cs (by rw [e]; exact fun c hc => hw.bucket_hash hc) m hm.symm (by
        intro es hes
        have hes := hes.trans hp2
        exact ⟨fun e he => hw.ent e (hes.mem_iff.1 he), ((hes.map _).nodup_iff).2 hw.nodup⟩)
      exact ⟨this.1, this.2.trans hp2⟩
    rcases drop_spec hd with ⟨e1, e2, e3⟩ | ⟨pre, c, post, e1, e2, e3⟩
    · left
      subst e1
      refine ⟨m, rfl, ?_, same e2⟩
      intro e he hel
      obtain ⟨c, hc, rfl⟩ := List.mem_map.1 he
      have h1 := hw.find hc
      have hel : c.lits.slice s.buffer = lits := hel
      rw [hel, hk] at h1
      exact e3 c h1 hel
    · right
      have hcb : c ∈ bucket s.clauses k := by rw [e1]; simp
      have hes : (ents s.buffer s.clauses).Perm (entryOf s.buffer c ::
          ((pre ++ post).map (entryOf s.buffer) ++ ents s.buffer (removeBucket s.clauses k))) := by
        refine hperm.trans ?_
        rw [e1, ← List.cons_append, ← List.map_cons]
        exact ((perm_mid c pre post).map _).append_right _
      rcases e3 with ⟨f1, f2, f3⟩ | ⟨f1, c', f2, f3⟩
      · left
        subst f1
        exact ⟨m, rfl, ⟨entryOf s.buffer c, mem_ents_bucket hcb, e2, f3⟩, same f2⟩
      · right
        have hnd := hw.nodup
        rw [(hes.map _).nodup_iff, List.map_cons] at hnd
        rcases f3 with ⟨g1, g2, g3, g4⟩ | ⟨g1, g2, g3⟩
        · subst g4
          simp only
          have hrep := bucket_replace hw k cs (by
            intro d hd
            rw [g3] at hd
            refine hw.bucket_hash ?_
            rw [e1]
            rcases List.mem_append.1 hd with hd | hd <;> simp [hd]) m hm.symm (by
              intro es hes'
              rw [g3] at hes'
              constructor
              · intro e he
                refine hw.ent e (hes.mem_iff.2 ?_)
                exact List.mem_cons_of_mem _ (hes'.mem_iff.1 he)
              · exact ((hes'.map _).nodup_iff).2 hnd.of_cons)
          obtain ⟨m2, b2, gg, q1, q2, q3⟩ := collectGarbage_spec env (s := { s with
            clauses := m
            garbage := s.garbage + c.lits.bufferUsed
            clauseCount := countDown lits s.clauseCount }) hrep.1
          refine ⟨c.id, .removed, m2, b2, gg, countDown lits s.clauseCount, ?_, q2, ?_, by simp⟩
          · rw [q1]
          · refine DelEff.gone (entryOf s.buffer c) _ e2 hes ?_ ?_ (q3.trans (by
              simp only; rw [← g3]; exact hrep.2))
            · rw [f2] at g1 g2
              simp only [entryOf]
              cases red <;> simp at f1 g1 g2 ⊢ <;> omega
            · rw [f2] at g1 g2
              simp only [entryOf]
              cases red <;> simp at f1 g1 g2 ⊢ <;> omega
        · subst g3
          have hc'l : c'.lits = c.lits := by rw [f2]
          have hent' : (cs.map (entryOf s.buffer) ++ ents s.buffer (removeBucket s.clauses k)).Perm
              (entryOf s.buffer c' ::
              ((pre ++ post).map (entryOf s.buffer) ++ ents s.buffer (removeBucket s.clauses k))) := by
            rw [g2, ← List.cons_append, ← List.map_cons]
            exact ((perm_mid c' pre post).map _).append_right _
          have hrep := bucket_replace hw k cs (by
            intro d hd
            rw [g2] at hd
            rcases List.mem_append.1 hd with hd | hd
            · exact hw.bucket_hash (by rw [e1]; simp [hd])
            · rcases List.mem_cons.1 hd with rfl | hd
              · rw [hc'l]; exact hw.bucket_hash hcb
              · exact hw.bucket_hash (by rw [e1]; simp [hd])) m hm.symm (by
              intro es hes'
              have hes' := hes'.trans hent'
              constructor
              · intro e he
                rcases List.mem_cons.1 (hes'.mem_iff.1 he) with rfl | he
                · have := hw.ent (entryOf s.buffer c) (mem_ents_bucket hcb)
                  refine ⟨by simp only [entryOf, hc'l]; exact this.1, ?_⟩
                  simp only [entryOf]
                  omega
                · exact hw.ent e (hes.mem_iff.2 (List.mem_cons_of_mem _ he))
              · rw [(hes'.map _).nodup_iff, List.map_cons]
                simp only [entryOf, hc'l] at hnd ⊢
                exact hnd)
          have hr : ∀ rr : DeleteResult, rr ≠ .removed → ∀ (g : Nat),
              (match (some (some (c.id, rr, g)) : Option (Option (Nat × DeleteResult × Nat))) with
              | some (some (id, .removed, g)) =>
                EStateM.Result.ok (id, DeleteResult.removed) (collectGarbage env { s with
                  clauses := m
                  garbage := s.garbage + g
                  clauseCount := countDown lits s.clauseCount })
              | some (some (id, r, _)) => .ok (id, r) (collectGarbage env { s with clauses := m })
              | some none => fail (if red then .deleteIsIrredundant else .deleteIsRedundant) { s with clauses := m }
              | none => fail .deleteUnknown { s with clauses := m }) =
              (.ok (c.id, rr) (collectGarbage env { s with clauses := m })) := by
            intro rr hrr g
            cases rr <;> simp at hrr ⊢
          obtain ⟨m2, b2, gg, q1, q2, q3⟩ := collectGarbage_spec env (s := { s with clauses := m }) hrep.1
          generalize hrr : (if (!red && c'.irred == 0) = true then DeleteResult.newlyRedundant else .unchanged) = rr
          have hrne : rr ≠ .removed := by rw [← hrr]; split <;> simp
          refine ⟨c.id, rr, m2, b2, gg, s.clauseCount, ?_, q2, ?_, by simp [hrne]⟩
          · refine (hr rr hrne 0).trans ?_
            rw [q1]
          · rw [← hrr]
            have hirr : c'.irred = (entryOf s.buffer c).irred - (if red then 0 else 1) := by rw [f2]; rfl
            have hred : c'.red = (entryOf s.buffer c).red - (if red then 1 else 0) := by rw [f2]; rfl
            rw [hirr]
            refine DelEff.kept (entryOf s.buffer c) _ e2 hes ?_ ?_ (q3.trans (hrep.2.trans (hent'.trans ?_)))
            · simp only [entryOf]; omega
            · rw [hirr, hred] at g1
              simp only [entryOf] at g1 ⊢
              cases red <;> simp at f1 g1 ⊢ <;> omega
            · rw [f2]; exact List.Perm.refl _

end Varisat.Checker
