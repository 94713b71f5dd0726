import Verif.Spec.LratCheck
import Verif.Proof.Drat
import Verif.Proof.CheckerReplay
import Verif.Proof.CheckerSaid
import Verif.Proof.CheckerRefuted
/-! The steps of an accepted proof are a valid LRAT proof for the formula. -/
namespace Varisat.Checker
open Spec.Lrat Spec.LratCheck

/-- The clauses after all events. -/
def lratAfter (d : Spec.LratCheck.Db) (es : List Event) : Spec.LratCheck.Db := es.foldl Spec.LratCheck.step d

theorem lrat_append {d : Spec.LratCheck.Db} {a b : List Event} : Valid d (a ++ b) ↔ Valid d a ∧ Valid (lratAfter d a) b := by
  induction a generalizing d with
  | nil => simp [Valid, lratAfter]
  | cons e a ih =>
    show _ ∧ Valid _ (a ++ b) ↔ (_ ∧ _) ∧ _
    rw [ih, and_assoc]
    rfl

theorem lratAfter_append {d : Spec.LratCheck.Db} {a b : List Event} : lratAfter d (a ++ b) = lratAfter (lratAfter d a) b := List.foldl_append

/-- The events of a list of steps. -/
def evs (o : List CheckedStep) : List Event := o.flatMap lratEvents

theorem evs_append (a b : List CheckedStep) : evs (a ++ b) = evs a ++ evs b := List.flatMap_append

/-! ### Replaying is deterministic -/

theorem step_det {strict d st d1 d2} (h : Replay.Step strict d st d1) (k : Replay.Step strict d st d2) : d1 = d2 := by
  cases h <;> cases k <;> rfl

theorem run_inv {strict d o st d2} (h : Replay.Run strict d (o ++ [st]) d2) :
    ∃ d1, Replay.Run strict d o d1 ∧ Replay.Step strict d1 st d2 := by
  generalize hx : o ++ [st] = x at h
  cases h with
  | nil => simp at hx
  | snoc d1 d2 ss s h hs =>
    obtain ⟨rfl, h2⟩ := List.append_inj' hx rfl
    cases h2
    exact ⟨d1, h, hs⟩

theorem run_split {strict d} {a b : List CheckedStep} : ∀ {d2}, Replay.Run strict d (a ++ b) d2 →
    ∃ d1, Replay.Run strict d a d1 ∧ Replay.Run strict d1 b d2 := by
  induction b using List.reverseRecOn with
  | nil => intro d2 h; rw [List.append_nil] at h; exact ⟨d2, h, .nil _⟩
  | append_singleton b st ih =>
    intro d2 h
    rw [← List.append_assoc] at h
    obtain ⟨d3, h1, h2⟩ := run_inv h
    obtain ⟨d1, k1, k2⟩ := ih h1
    exact ⟨d1, k1, .snoc _ _ _ _ _ k2 h2⟩

theorem run_nil {strict d d2} (h : Replay.Run strict d [] d2) : d2 = d := by
  generalize hx : ([] : List CheckedStep) = x at h
  cases h with
  | nil => rfl
  | snoc d1 d2 ss s h hs => simp at hx

theorem run_det {strict d} {o : List CheckedStep} : ∀ {d1 d2}, Replay.Run strict d o d1 → Replay.Run strict d o d2 → d1 = d2 := by
  induction o using List.reverseRecOn with
  | nil => intro d1 d2 h k; rw [run_nil h, run_nil k]
  | append_singleton o st ih =>
    intro d1 d2 h k
    obtain ⟨a, h1, h2⟩ := run_inv h
    obtain ⟨b, k1, k2⟩ := run_inv k
    rw [ih h1 k1] at h2
    exact step_det h2 k2

/-! ### Hints -/

theorem same_mem {c : List Lit} {c0 : List Int} (h : ∀ x, x ∈ c0 ↔ x ∈ ints c) {l : Lit} (hl : l ∈ c) : l.toDimacs ∈ c0 :=
  (h _).2 (mem_ints.2 hl)

theorem hints_of {live : Nat → Option (List Lit)} {clause : Nat → Option (List Int)}
    (hs : ∀ i c, live i = some c → ∃ c0, clause i = some c0 ∧ ∀ x, x ∈ c0 ↔ x ∈ ints c) :
    ∀ {ids : List Nat} {cls : List (List Lit)} {known : List Lit}, List.Forall₂ (fun i c => live i = some c) ids cls →
      RupChain Lit.neg known cls → Hints clause (ints known) ids := by
  intro ids
  induction ids with
  | nil => intro cls known h k; cases h; exact k
  | cons i ids ih =>
    intro cls known h k
    cases h with
    | @cons _ c _ cls h1 h2 =>
    obtain ⟨c0, e1, e2⟩ := hs i c h1
    cases ids with
    | nil =>
      cases h2
      refine ⟨c0, e1, fun x hx => ?_⟩
      obtain ⟨l, hl, rfl⟩ := of_mem_ints ((e2 x).1 hx)
      rw [← dimacs_neg]
      exact mem_ints.2 (k l hl)
    | cons j ids =>
      cases h2 with
      | @cons _ d _ cls h2 h3 =>
      obtain ⟨l, hl, k1, k2, k3, k4⟩ := k
      refine ⟨c0, e1, l.toDimacs, same_mem e2 hl, fun q => k1 (mem_ints.1 q), fun q => k2 (mem_ints.1 (dimacs_neg l ▸ q)), ?_, ?_⟩
      · intro x hx hne
        obtain ⟨m, hm, rfl⟩ := of_mem_ints ((e2 x).1 hx)
        rw [← dimacs_neg]
        exact mem_ints.2 (k3 m hm (fun e => hne (by rw [e])))
      · exact ih (.cons h2 h3) k4

/-- The clauses of the replay are those of the LRAT checker. -/
structure Sim (d : Replay.Db) (p : Spec.LratCheck.Db) : Prop where
  clause : ∀ i c, d.live i = some c → ∃ c0, p.clause i = some c0 ∧ ∀ x, x ∈ c0 ↔ x ∈ ints c
  next : p.next ≤ d.next

theorem map_neg_ints (c : List Lit) : (ints c).map (- ·) = ints (c.map Lit.neg) := by
  unfold ints
  rw [List.map_map, List.map_map]
  congr 1
  funext l
  exact (dimacs_neg l).symm

/-- Steps that report an input clause. -/
def CheckedStep.isInput : CheckedStep → Prop
  | .addClause .. | .duplicatedClause .. | .tautologicalClause .. => True
  | _ => False

theorem Sim.del {d : Replay.Db} {p : Spec.LratCheck.Db} (h : Sim d p) {id : Nat} {c : List Lit} (hl : d.live id = some c) :
    Valid p [.del id] ∧ Sim { d with live := Replay.set d.live id none } (lratAfter p [.del id]) := by
  refine ⟨⟨?_, trivial⟩, ⟨fun i e he => ?_, h.next⟩⟩
  · obtain ⟨c0, e, -⟩ := h.clause id c hl
    show (p.clause id).isSome
    rw [e]; rfl
  · simp only [Replay.set] at he
    split at he
    · cases he
    · rename_i hi
      obtain ⟨c0, e1, e2⟩ := h.clause i e he
      refine ⟨c0, ?_, e2⟩
      show (if i = id then none else p.clause i) = _
      rw [if_neg hi, e1]

theorem Sim.less {d d' : Replay.Db} {p : Spec.LratCheck.Db} (h : Sim d p) (hl : ∀ i c, d'.live i = some c → d.live i = some c)
    (hn : d'.next = d.next) : Sim d' p := ⟨fun i c k => h.clause i c (hl i c k), by rw [hn]; exact h.next⟩

theorem Sim.step {strict d st d' p} (h : Sim d p) (hs : Replay.Step strict d st d') (hn : ¬ st.isInput) :
    Valid p (lratEvents st) ∧ Sim d' (lratAfter p (lratEvents st)) := by
  cases hs with
  | userVar v u => exact ⟨trivial, h⟩
  | add => exact absurd trivial hn
  | dup => exact absurd trivial hn
  | taut => exact absurd trivial hn
  | rup id red c ps hid hr =>
    obtain ⟨cls, h1, h2⟩ := hr
    refine ⟨⟨⟨Nat.le_trans h.next hid, ?_⟩, trivial⟩, ⟨fun i e he => ?_, Nat.le_refl _⟩⟩
    · show Hints _ ((ints c).map (- ·)) _
      rw [map_neg_ints]
      exact hints_of h.clause h1 h2
    · show ∃ c0, (if i = id then some (ints c) else p.clause i) = _ ∧ _
      simp only [Replay.set] at he
      split at he
      · rename_i hi
        rw [if_pos hi]
        cases he
        exact ⟨_, rfl, fun _ => .rfl⟩
      · rename_i hi
        rw [if_neg hi]
        exact h.clause i e he
  | del id c hl => exact h.del hl
  | delAt id keep c ps hl hr =>
    cases keep with
    | true => exact ⟨trivial, h⟩
    | false => exact h.del hl
  | delRat id keep c pivot hl hp hno =>
    cases keep with
    | true =>
      refine ⟨trivial, h.less (fun i c k => ?_) rfl⟩
      simp only [Replay.set] at k
      split at k
      · cases k
      · exact k
    | false => exact h.del hl
  | irred id c hl => exact ⟨trivial, h⟩
  | model a => exact ⟨trivial, h⟩
  | assume a => exact ⟨trivial, h.less (fun _ _ k => k) rfl⟩
  | failed core ps hs hr => exact ⟨trivial, h⟩

theorem Sim.run {strict d p} {o : List CheckedStep} (h : Sim d p) : ∀ {d'}, Replay.Run strict d o d' → (∀ st ∈ o, ¬ st.isInput) →
    Valid p (evs o) ∧ Sim d' (lratAfter p (evs o)) := by
  induction o using List.reverseRecOn with
  | nil => intro d' k _; rw [run_nil k]; exact ⟨trivial, h⟩
  | append_singleton o st ih =>
    intro d' k hn
    obtain ⟨d1, k1, k2⟩ := run_inv k
    obtain ⟨q1, q2⟩ := ih k1 (fun st hst => hn st (by simp [hst]))
    obtain ⟨q3, q4⟩ := q2.step k2 (hn st (by simp))
    rw [evs_append, lrat_append, lratAfter_append]
    have e : evs [st] = lratEvents st := by simp [evs]
    rw [e]
    exact ⟨⟨q1, q3⟩, q4⟩

/-! ### The clauses of the formula -/

/-- Two clauses of `P` have only the literal `l` and only its negation. (The empty clause counts as both.) -/
def Clashing (P : List (List Lit)) : Prop := ∃ l : Lit, (∃ c ∈ P, ∀ m ∈ c, m = l) ∧ ∃ c ∈ P, ∀ m ∈ c, m = l.neg

/-- After the clauses `P` of the formula `F`. -/
structure Loaded (F P : List (List Lit)) (s : St) : Prop where
  ex : ∃ d, Replay.Run True {} s.out d ∧ Link True s d ∧
    (∀ i c, d.live i = some c → i < P.length ∧ ∃ c0, P[i]? = some c0 ∧ (∀ l, l ∈ c0 ↔ l ∈ c) ∧
      (lratAfter (start (F.map ints)) (evs s.out)).clause i = some (ints c0))
  next : s.nextId = P.length
  valid : Valid (start (F.map ints)) (evs s.out)
  top : (lratAfter (start (F.map ints)) (evs s.out)).next = F.length
  rest : ∀ i, P.length ≤ i → (lratAfter (start (F.map ints)) (evs s.out)).clause i = (F[i]?).map ints
  unsat : s.unsat = true → Clashing P

theorem Clashing.mono {P Q : List (List Lit)} (h : Clashing P) (hs : ∀ c ∈ P, c ∈ Q) : Clashing Q := by
  obtain ⟨l, ⟨c, h1, h2⟩, d, h3, h4⟩ := h
  exact ⟨l, ⟨c, hs c h1, h2⟩, d, hs d h3, h4⟩

theorem run_one {strict d st d'} (h : Replay.Run strict d [st] d') : Replay.Step strict d st d' := by
  obtain ⟨d1, h1, h2⟩ := run_inv (o := []) h
  rw [run_nil h1] at h2
  exact h2

theorem Loaded.init (F : List (List Lit)) : Loaded F [] {} := by
  obtain ⟨d, h1, h2⟩ := Rep.init True
  refine ⟨⟨d, h1, h2, fun i c k => ?_⟩, rfl, trivial, ?_, fun i _ => ?_, fun k => by cases k⟩
  · rw [run_nil h1] at k; cases k
  · show (F.map ints).length = _; simp
  · show (F.map ints)[i]? = _; simp

theorem getElem_snoc {P cs F : List (List Lit)} {c : List Lit} (hF : F = P ++ c :: cs) : F[P.length]? = some c := by
  rw [hF]; simp

/-- A clause that is not used. -/
theorem Loaded.skip {F P cs : List (List Lit)} {c : List Lit} {s s' : St} {o : List CheckedStep} {d' : Replay.Db} (hF : F = P ++ c :: cs)
    (h : Loaded F P s) (ho : s'.out = s.out ++ o) (he : evs o = [.del P.length]) (hr : Replay.Run True {} s'.out d') (hl : Link True s' d')
    (hd : ∀ d, Replay.Run True d o d' → d'.live = d.live) (hn : s'.nextId = s.nextId + 1) (hu : s'.unsat = s.unsat) : Loaded F (P ++ [c]) s' := by
  obtain ⟨⟨d, h1, h2, h3⟩, h4, h5, h6, h7, h8⟩ := h
  have hr' := hr
  rw [ho] at hr'
  obtain ⟨d1, k1, k2⟩ := run_split hr'
  have e := run_det k1 h1
  subst e
  have hlive := hd _ k2
  have hevs : evs s'.out = evs s.out ++ [.del P.length] := by rw [ho, evs_append, he]
  have ha : lratAfter (start (F.map ints)) (evs s'.out) = Spec.LratCheck.step (lratAfter (start (F.map ints)) (evs s.out)) (.del P.length) := by
    rw [hevs, lratAfter_append]; rfl
  refine ⟨⟨d', hr, hl, fun i e k => ?_⟩, by rw [hn, h4]; simp, ?_, ?_, fun i hi => ?_, fun k => ?_⟩
  · rw [hlive] at k
    obtain ⟨q1, c0, q2, q3, q4⟩ := h3 i e k
    refine ⟨by simp; omega, c0, by rw [List.getElem?_append_left q1]; exact q2, q3, ?_⟩
    rw [ha]
    show (if i = P.length then none else _) = _
    rw [if_neg (by omega)]
    exact q4
  · rw [hevs, lrat_append]
    refine ⟨h5, ?_, trivial⟩
    show (Spec.LratCheck.Db.clause _ _).isSome
    rw [h7 _ (Nat.le_refl _), getElem_snoc hF]; rfl
  · rw [ha]; exact h6
  · rw [ha]
    simp only [List.length_append, List.length_singleton] at hi
    show (if i = P.length then none else _) = _
    rw [if_neg (by omega)]
    exact h7 i (by omega)
  · rw [hu] at k
    exact (h8 k).mono fun c hc => by simp [hc]

theorem canonical_nil {c : List Lit} (h : (copyCanonical c).1 = []) : c = [] := by
  cases c with
  | nil => rfl
  | cons l c =>
    have : l ∈ (copyCanonical (l :: c)).1 := mem_canonical.2 (by simp)
    rw [h] at this; cases this

theorem canonical_one {c : List Lit} {l : Lit} (h : (copyCanonical c).1 = [l]) : ∀ m ∈ c, m = l := by
  intro m hm
  have : m ∈ (copyCanonical c).1 := mem_canonical.2 hm
  rw [h] at this; simpa using this

theorem Stored.ids {lits red s s1 id res} (h : Stored lits red s s1 id res) :
    (res = .new → id = s.nextId ∧ s1.nextId = s.nextId + 1) ∧ (res ≠ .new → s1.nextId = s.nextId ∧ s1.unsat = s.unsat) ∧
    (s1.unsat = true → s.unsat = true ∨ lits = [] ∨ ∃ l cid, lits = [l] ∧ s.units l.var = some ⟨.global cid, l.isNeg⟩) := by
  cases h.kind with
  | empty hl hp hu hs hc hi hcc => exact ⟨fun _ => ⟨rfl, hi⟩, fun k => absurd rfl k, fun _ => .inr (.inl hl)⟩
  | unitDup l id hl hv hp hu hs hc hi hcc => exact ⟨(fun k => by cases k), fun _ => ⟨hi, hs⟩, fun k => .inl (hs ▸ k)⟩
  | unitConflict l cid hl hv hp hu hs hc hi hcc => exact ⟨fun _ => ⟨rfl, hi⟩, fun k => absurd rfl k, fun _ => .inr (.inr ⟨l, cid, hl, hv⟩)⟩
  | unitNew l hl hv hp hu hs hc hi hcc => exact ⟨fun _ => ⟨rfl, hi⟩, fun k => absurd rfl k, fun k => .inl (hs ▸ k)⟩
  | long id res hl he hu hs hc hi hcc =>
    refine ⟨fun k => ⟨?_, by rw [hi, if_pos k]⟩, fun k => ⟨by rw [hi, if_neg k], hs⟩, fun k => .inl (hs ▸ k)⟩
    cases he with
    | found => split at k <;> cases k
    | fresh => rfl

/-- A clause that is stored. -/
theorem Loaded.store {F P cs : List (List Lit)} {c : List Lit} {s s0 s1 s' : St} {id : Nat} {d' : Replay.Db} (hF : F = P ++ c :: cs)
    (h : Loaded F P s) (hq : Quiet s [] s0) (hst : Stored (copyCanonical c).1 false s0 s1 id .new)
    (hq1 : Quiet s1 [.addClause id (copyCanonical c).1] s') (hr : Replay.Run True {} s'.out d') (hl : Link True s' d') : Loaded F (P ++ [c]) s' := by
  obtain ⟨⟨d, h1, h2, h3⟩, h4, h5, h6, h7, h8⟩ := h
  have ho : s'.out = s.out ++ [.addClause id (copyCanonical c).1] := by rw [hq1.out, hst.out, hq.out0]
  have hid := hst.ids.1 rfl
  rw [hq.nextId] at hid
  obtain ⟨rfl, hn1⟩ := hid
  have hr' := hr
  rw [ho] at hr'
  obtain ⟨d1, k1, k2⟩ := run_split hr'
  have e := run_det k1 h1
  subst e
  have k2 := run_one k2
  have hlive : d'.live = Replay.set d1.live s.nextId (some (copyCanonical c).1) := by cases k2; rfl
  have hevs : evs s'.out = evs s.out := by rw [ho, evs_append]; simp [evs, lratEvents]
  refine ⟨⟨d', hr, hl, fun i e k => ?_⟩, by rw [hq1.nextId, hn1, h4]; simp, ?_, ?_, fun i hi => ?_, fun k => ?_⟩
  · rw [hlive] at k
    rw [hevs]
    simp only [Replay.set] at k
    split at k
    · rename_i hi
      cases k
      rw [h4] at hi
      subst hi
      exact ⟨by simp, c, by simp, fun l => mem_canonical.symm, by rw [h7 _ (Nat.le_refl _), getElem_snoc hF]; rfl⟩
    · obtain ⟨q1, c0, q2, q3, q4⟩ := h3 i e k
      exact ⟨by simp; omega, c0, by rw [List.getElem?_append_left q1]; exact q2, q3, q4⟩
  · rw [hevs]; exact h5
  · rw [hevs]; exact h6
  · rw [hevs]
    simp only [List.length_append, List.length_singleton] at hi
    exact h7 i (by omega)
  · have keep : s0.unsat = true → Clashing (P ++ [c]) := fun q => (h8 (by rw [← hq.unsat]; exact q)).mono fun c hc => by simp [hc]
    rw [hq1.unsat] at k
    rcases hst.ids.2.2 k with k | k | ⟨l, cid, k, hv⟩
    · exact keep k
    · rw [canonical_nil k]
      exact ⟨⟨0⟩, ⟨[], by simp, by simp⟩, [], by simp, by simp⟩
    · have hx : HasId s cid [l.neg] := .inr ⟨l.var, l.isNeg, by rw [← hq.units]; exact hv, by
          have e : Lit.mk' l.var l.isNeg = l.neg := by
            rw [← Lit.mk'_var_neg l.neg, Lit.var_neg, Lit.isNeg_neg, Bool.not_not]
          rw [e]⟩
      obtain ⟨q1, c0, q2, q3, -⟩ := h3 _ _ (h2.fwd _ _ hx)
      refine ⟨l, ⟨c, by simp, canonical_one k⟩, c0, List.mem_append_left _ (List.mem_of_getElem? q2), fun m hm => ?_⟩
      simpa using (q3 m).1 hm

theorem Loaded.add {F P cs : List (List Lit)} {c : List Lit} {s s' : St} (hF : F = P ++ c :: cs) (hc : ¬ Clashing F.dropLast)
    (h : Loaded F P s) (he : AddEff c s s') : Loaded F (P ++ [c]) s' := by
  have hrep : Rep True s := by obtain ⟨d, h1, h2, -⟩ := h.ex; exact ⟨d, h1, h2⟩
  obtain ⟨d', hr, hl⟩ := hrep.add he
  have hn := h.next
  cases he with
  | skipped hu e =>
    refine absurd ((h.unsat hu).mono fun x hx => ?_) hc
    rw [hF, List.dropLast_append_of_ne_nil (by simp)]
    exact List.mem_append_left _ hx
  | taut s1 hu ht hq hb =>
    refine h.skip hF (hb.out.trans hq.out) (by rw [hn]; rfl) hr hl (fun d k => ?_) (by rw [hb.nextId, hq.nextId]) ?_
    · cases run_one k; rfl
    · exact (show s'.unsat = s1.unsat from hb.same.unsat).trans hq.unsat
  | new s0 s1 id hu ht hq hst hq1 => exact h.store hF hq hst hq1 hr hl
  | irred s0 s1 s2 id hu ht hq hst hq1 hb =>
    have e := hst.ids.2.1 (by simp)
    refine h.skip hF (o := [.makeIrredundant id (copyCanonical c).1, .duplicatedClause s1.nextId id (copyCanonical c).1])
      (by rw [hb.out, hq1.out, hst.out, hq.out0]) (by rw [e.1, hq.nextId, hn]; rfl) hr hl (fun d k => ?_)
      (by rw [hb.nextId, hq1.nextId, e.1, hq.nextId]) ?_
    · obtain ⟨d1, k1, k2⟩ := run_split (a := [_]) (b := [_]) k
      have k1 := run_one k1
      have k2 := run_one k2
      have x1 : d1.live = d.live := by cases k1; rfl
      have x2 : d'.live = d1.live := by cases k2; rfl
      rw [x2, x1]
    · exact (show s'.unsat = s2.unsat from hb.same.unsat).trans (hq1.unsat.trans (e.2.trans hq.unsat))
  | dup s0 s1 s2 id hu ht hq hst hq1 hb =>
    have e := hst.ids.2.1 (by simp)
    refine h.skip hF (o := [.duplicatedClause s1.nextId id (copyCanonical c).1])
      (by rw [hb.out, hq1.out, hst.out, hq.out0]) (by rw [e.1, hq.nextId, hn]; rfl) hr hl (fun d k => ?_)
      (by rw [hb.nextId, hq1.nextId, e.1, hq.nextId]) ?_
    · have k1 := run_one k
      cases k1; rfl
    · exact (show s'.unsat = s2.unsat from hb.same.unsat).trans (hq1.unsat.trans (e.2.trans hq.unsat))

theorem loaded_execs {env : Env} {F : List (List Lit)} (hc : ¬ Clashing F.dropLast) : ∀ {cs P s s' G}, F = P ++ cs → Ran env G s → Loaded F P s →
    execs env (cs.map .add) s = .ok () s' → Loaded F F s' := by
  intro cs
  induction cs with
  | nil =>
    intro P s s' G hF hr h he
    have he : (EStateM.Result.ok () s : EStateM.Result Err St Unit) = .ok () s' := he
    simp only [EStateM.Result.ok.injEq, true_and] at he
    subst he
    rw [List.append_nil] at hF
    rw [hF] at h ⊢
    exact h
  | cons c cs ih =>
    intro P s s' G hF hr h he
    obtain ⟨s1, h1, h2⟩ := execs_ok he
    exact ih (by rw [hF]; simp) (hr.accept _ h1) (h.add hF hc (op_ok hr.core.pre h1)) h2

/-! ### The steps of the proof -/

/-- No input clause was reported between two states. -/
def Mute (s s' : St) : Prop := ∃ o, s'.out = s.out ++ o ∧ ∀ st ∈ o, ¬ st.isInput

theorem Mute.of {s s' : St} {o : List CheckedStep} (h : s'.out = s.out ++ o) (k : ∀ st ∈ o, ¬ st.isInput) : Mute s s' := ⟨o, h, k⟩

theorem Mute.trans {a b c : St} (h : Mute a b) (k : Mute b c) : Mute a c := by
  obtain ⟨o, h1, h2⟩ := h
  obtain ⟨q, k1, k2⟩ := k
  refine ⟨o ++ q, by rw [k1, h1, List.append_assoc], fun st hst => ?_⟩
  rcases List.mem_append.1 hst with g | g
  · exact h2 st g
  · exact k2 st g

theorem UnitsEff.mute {env ls s s'} (h : UnitsEff env ls s s') : Mute s s' := by
  induction h with
  | nil => exact .of (o := []) (by simp) (by simp)
  | cons l ls s s0 s1 s2 s' id res ids hq hr htr hst hq2 tail ih =>
    exact Mute.trans (.of (by rw [hq2.out, hst.out, hq.out0]) (by cases res <;> simp [CheckedStep.isInput])) ih

theorem StepEff.mute {env s s' st} (he : StepEff env st s s') (hn : ∀ c, st ≠ .addClause c) : Mute s s' := by
  unfold StepEff at he
  split at he
  · exact absurd rfl (hn _)
  · obtain ⟨s0, s1, s2, id, res, ids, hq, hr, htr, hst, hs2, hq2⟩ := he.run
    have hout : s2.out = s0.out := by rw [hs2, ← hst.out]; split <;> rfl
    refine .of (by rw [hq2.out, hout, hq.out0]) ?_
    cases res <;> simp [CheckedStep.isInput]
  · exact he.mute
  · obtain ⟨id, r, s1, o, hd, hw, hu, hsat, hcf, hni, -, has, hout, hpid, hpl, hcc, ho, hq⟩ := he.run
    refine .of (by rw [hq.out, hout]) ?_
    split at ho <;> (try subst ho) <;> simp [CheckedStep.isInput]
    · exact absurd ho (by simp)
    · obtain ⟨l, hl, sid, hsid, rfl⟩ := ho; simp
    · obtain ⟨sid, hsid, rfl⟩ := ho; simp
  · cases he with
    | free _ _ hq => exact .of hq.out (by simp)
    | unit id b s1 _ hu hq hq' =>
      exact .of (by rw [hq'.out, List.append_nil]; exact hq.out) (by simp [CheckedStep.isInput])
  · exact .of he.1.out (by simp [CheckedStep.isInput])
  · obtain ⟨s0, hq, hq'⟩ := he
    exact .of (o := [_]) (by rw [hq'.out]; show s0.out ++ _ = _; rw [hq.out0]) (by simp [CheckedStep.isInput])
  · obtain ⟨ids, hq, hr⟩ := he.run
    exact .of hq.out (by simp [CheckedStep.isInput])
  · obtain ⟨o, hq, ho⟩ := he
    refine .of hq.out ?_
    rcases ho with rfl | ⟨v, u, rfl⟩ <;> simp [CheckedStep.isInput]

theorem mute_execs {env : Env} {sts : List ProofStep} : ∀ {F s s'}, Ran env F s → (∀ c, ProofStep.addClause c ∉ sts) → execs env (sts.map Op.step) s = .ok () s' → Mute s s' := by
  induction sts with
  | nil =>
    intro F s s' _ _ he
    have he : (EStateM.Result.ok () s : EStateM.Result Err St Unit) = .ok () s' := he
    simp only [EStateM.Result.ok.injEq, true_and] at he
    subst he
    exact .of (o := []) (by simp) (by simp)
  | cons st sts ih =>
    intro F s s' hr hn he
    obtain ⟨s1, h1, h2⟩ := execs_ok he
    have hop : StepEff env st { s with step := s.step + 1 } s1 := op_ok hr.core.pre h1
    have k : Mute { s with step := s.step + 1 } s1 := hop.mute fun c e => hn c (by simp [e])
    exact Mute.trans (show Mute s s1 from k) (ih (hr.accept _ h1) (fun c hc => hn c (by simp [hc])) h2)

theorem mute_conflicts {env : Env} {s s' : St} (h : processUnitConflicts env s = .ok () s') : Mute s s' := by
  have h : (match s.unitConflict with
    | some (a, b) => emit env (.atClause s.nextId false [] [a, b])
    | none => pure ()) s = .ok () s' := h
  cases hu : s.unitConflict with
  | none =>
    rw [hu] at h
    cases h
    exact .of (o := []) (by simp) (by simp)
  | some ab =>
    rw [hu] at h
    have h : emit env (.atClause s.nextId false [] [ab.1, ab.2]) s = .ok () s' := h
    unfold emit at h
    simp only at h
    refine .of (o := [.atClause s.nextId false [] [ab.1, ab.2]]) ?_ (by simp [CheckedStep.isInput])
    repeat' split at h
    all_goals first | (cases h; done) | (cases h; rfl)

end Varisat.Checker
