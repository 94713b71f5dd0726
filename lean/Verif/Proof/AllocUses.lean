import Verif.Proof.Alloc
import Verif.Spec.ClauseStore
/-! # Clause buffer: the layout invariant -/
namespace Varisat
open Buf

/-- Every clause of the map has a region of its own. -/
structure Lay (b : Buf) (m : Store) (ext : Nat → Nat) : Prop where
  at_ : ∀ c h ls, m c = some (h, ls) → At b c (ext c) h ls
  sep : ∀ c d, m c ≠ none → m d ≠ none → c < d → c + headerLen + ext c ≤ d

theorem Store.set_same (m : Store) (c : Nat) (x : Header × List Word) : m.set c x c = some x := by simp [Store.set]
theorem Store.set_other (m : Store) {c d : Nat} (x : Header × List Word) (h : d ≠ c) : m.set c x d = m d := by
  simp [Store.set, h]

theorem Lay.update {b : Buf} {m : Store} {ext : Nat → Nat} (l : Lay b m ext) {c : Nat} {h h' : Header}
    {ls ls' : List Word} (hc : m c = some (h, ls)) {i : Nat} {xs : List Word}
    (hi : c ≤ i ∧ i + xs.length ≤ c + headerLen + ext c)
    (ha : At ⟨splice b.words i xs⟩ c (ext c) h' ls') : Lay ⟨splice b.words i xs⟩ (m.set c (h', ls')) ext := by
  have hin := (l.at_ c h ls hc).inside
  constructor
  · intro d h1 l1 hd
    by_cases hdc : d = c
    · subst hdc
      rw [Store.set_same] at hd; cases hd; exact ha
    · rw [Store.set_other _ _ hdc] at hd
      refine (l.at_ d h1 l1 hd).other (by omega) ?_
      rcases Nat.lt_or_gt_of_ne hdc with k | k
      · have := l.sep d c (by simp [hd]) (by simp [hc]) k; omega
      · have := l.sep c d (by simp [hc]) (by simp [hd]) k; omega
  · intro d e hd he k
    refine l.sep d e ?_ ?_ k
    · by_cases hdc : d = c
      · subst hdc; simp [hc]
      · rwa [Store.set_other _ _ hdc] at hd
    · by_cases hdc : e = c
      · subst hdc; simp [hc]
      · rwa [Store.set_other _ _ hdc] at he

theorem setLen_len (h : Header) {n : Nat} (hn : n < 2 ^ 32) : (h.setLen n).len = n := by
  simp only [Header.len, Header.setLen, Header.put, if_true, BitVec.toNat_ofNat]
  exact Nat.mod_eq_of_lt hn

theorem addClause_some {b b' : Buf} {h : Header} {lits : List Word} {c : Nat} (k : b.addClause h lits = some (b', c)) :
    c = b.words.length ∧ b' = ⟨b.words ++ (h.setLen lits.length).words ++ lits⟩ ∧ 3 ≤ lits.length ∧ b.words.length ≤ maxOffset := by
  unfold Buf.addClause at k
  simp only at k
  split at k
  · cases k
  · split at k
    · cases k
    · rename_i h1 h2
      cases k
      exact ⟨Nat.mod_eq_of_lt (by unfold maxOffset at h2; omega), rfl, by omega, by omega⟩

theorem Uses.lay {b : Buf} {m : Store} (u : Uses b m) : ∃ ext, Lay b m ext := by
  induction u with
  | empty => exact ⟨fun _ => 0, by simp, by simp⟩
  | @add b b' m c header lits u hl ha ih =>
    obtain ⟨ext, l⟩ := ih
    obtain ⟨rfl, rfl, h3, _⟩ := addClause_some ha
    have hin : ∀ d, m d ≠ none → d + headerLen + ext d ≤ b.words.length := by
      intro d hd
      cases hm : m d with
      | none => exact absurd hm hd
      | some x => exact (l.at_ d x.1 x.2 hm).inside
    refine ⟨fun d => if d = b.words.length then lits.length else ext d, ?_, ?_⟩
    · intro d h ls hd
      by_cases hdc : d = b.words.length
      · subst hdc
        rw [Store.set_same] at hd; cases hd
        simp only [if_true]
        exact At.new _ _ _ (setLen_len _ hl)
      · rw [Store.set_other _ _ hdc] at hd
        simp only [if_neg hdc]
        have := (l.at_ d h ls hd).grow ((header.setLen lits.length).words ++ lits)
        rwa [← List.append_assoc] at this
    · intro d e hd he k
      by_cases hdc : d = b.words.length
      · have he' : m e ≠ none := by rwa [Store.set_other _ _ (by omega)] at he
        have := hin e he'
        omega
      · have hd' : m d ≠ none := by rwa [Store.set_other _ _ hdc] at hd
        simp only [if_neg hdc]
        by_cases hec : e = b.words.length
        · rw [hec]; exact hin d hd'
        · rw [Store.set_other _ _ hec] at he
          exact l.sep d e hd' he k
  | @header b b' m c h lits f u hc hf ha ih =>
    obtain ⟨ext, l⟩ := ih
    have a := l.at_ c h lits hc
    unfold Buf.headerMut at ha
    rw [a.header] at ha
    cases ha
    exact ⟨ext, l.update hc ⟨Nat.le_refl _, by rw [Header.words_len]; unfold headerLen; omega⟩
      (a.hdrWrite (f h) (by rw [hf, a.len]))⟩
  | @write b b' m c h lits new u hc hn ha ih =>
    obtain ⟨ext, l⟩ := ih
    have a := l.at_ c h lits hc
    unfold Buf.writeLits at ha
    rw [a.clause] at ha
    simp only at ha
    split at ha
    · cases ha
      exact ⟨ext, l.update hc ⟨by omega, by have := a.le; omega⟩ (a.litWrite new hn)⟩
    · cases ha
  | @shrink b b' m c h lits n u hc hn ha ih =>
    obtain ⟨ext, l⟩ := ih
    have a := l.at_ c h lits hc
    unfold Buf.headerMut at ha
    rw [a.header] at ha
    cases ha
    have hl : h.len < 2 ^ 32 := (h.data 2).isLt
    have := a.len
    exact ⟨ext, l.update hc ⟨Nat.le_refl _, by rw [Header.words_len]; unfold headerLen; omega⟩
      (a.hdrShrink (h.setLen n) n hn (setLen_len _ (by omega)))⟩

theorem setLen_self (h : Header) (n : Nat) (hn : h.len = n) : h.setLen n = h := by
  subst hn
  cases h with
  | mk d =>
    simp only [Header.setLen, Header.put, Header.len, Header.mk.injEq]
    funext i
    split
    · rename_i hi; subst hi; simp
    · rfl

theorem setMark_len (h : Header) (b : Bool) : (h.setMark b).len = h.len := by
  simp [Header.setMark, Header.put, Header.len, Header.markWord]

/-- The copy loop. -/
theorem copyLoop_ok {old : Buf} {m : Store} {ext : Nat → Nat} (l : Lay old m ext) (hs : old.words.length ≤ maxOffset + 1) :
    ∀ (refs : List Nat), refs.Pairwise (· < ·) →
    (∀ c ∈ refs, ∃ h ls, m c = some (h, ls) ∧ (h.deleted = false → 3 ≤ ls.length)) →
    ∀ (new : Buf) (m0 : Store), Uses new m0 → (∀ d, m0 d ≠ none → d < new.words.length) →
    (∀ c ∈ refs, new.words.length ≤ c) →
    ∃ new' ps m', copyLoop old refs new = some (new', ps) ∧ Uses new' m' ∧
      ps.map (·.1) = refs.filter (fun c => match m c with | some (h, _) => !h.deleted | none => false) ∧
      (ps.map (·.2)).Pairwise (· < ·) ∧ (∀ p ∈ ps, new.words.length ≤ p.2) ∧
      (∀ d, d < new.words.length → m' d = m0 d) ∧
      (∀ d, new.words.length ≤ d → (m' d ≠ none ↔ ∃ p ∈ ps, p.2 = d)) ∧
      ∀ p ∈ ps, ∃ h ls, m p.1 = some (h, ls) ∧ m' p.2 = some (h.setMark false, ls)
  | [], _, _, new, m0, u, hm0, _ =>
    ⟨new, [], m0, rfl, u, rfl, by simp, by simp, fun _ _ => rfl,
      fun d hd => ⟨fun k => absurd (hm0 d k) (by omega), by simp⟩, by simp⟩
  | c :: refs, hp, hc, new, m0, u, hm0, hle => by
    rw [List.pairwise_cons] at hp
    obtain ⟨h, ls, e1, e2⟩ := hc c (by simp)
    have a := l.at_ c h ls e1
    rw [copyLoop, a.clause]
    simp only
    cases hdel : h.deleted with
    | true =>
      simp only [if_true]
      obtain ⟨new', ps, m', k1, k2, k3, k4⟩ := copyLoop_ok l hs refs hp.2 (fun d hd => hc d (by simp [hd])) new m0 u hm0
        (fun d hd => hle d (by simp [hd]))
      refine ⟨new', ps, m', k1, k2, ?_, k4⟩
      rw [k3, List.filter_cons, e1]
      simp [hdel]
    | false =>
      have h3 := e2 hdel
      have hnc := hle c (by simp)
      have hin := a.inside
      have hlen : (h.setMark false).len = ls.length := by rw [setMark_len]; exact a.len
      have hadd : new.addClause (h.setMark false) ls =
          some (⟨new.words ++ (h.setMark false).words ++ ls⟩, new.words.length) := by
        unfold Buf.addClause
        simp only
        rw [if_neg (by omega), if_neg (by unfold headerLen at hin; omega), setLen_self _ _ hlen, Nat.mod_eq_of_lt (by unfold maxOffset headerLen at *; omega)]
      rw [hadd]
      simp only [Bool.false_eq_true, if_false]
      have hll : ls.length < 2 ^ 32 := by
        have := a.len; have h2 : h.len < 2 ^ 32 := (h.data 2).isLt; omega
      have u' := Uses.add u hll hadd
      rw [setLen_self _ _ hlen] at u'
      have hnl : (new.words ++ (h.setMark false).words ++ ls).length = new.words.length + 3 + ls.length := by
        simp [Header.words]; omega
      obtain ⟨new', ps, m', k1, k2, k3, k4, k5, k6, k7, k8⟩ := copyLoop_ok l hs refs hp.2 (fun d hd => hc d (by simp [hd]))
        ⟨new.words ++ (h.setMark false).words ++ ls⟩ _ u'
        (by
          intro d hd
          simp only [hnl]
          by_cases hdc : d = new.words.length
          · omega
          · rw [Store.set_other _ _ hdc] at hd
            have := hm0 d hd; omega)
        (by
          intro d hd
          simp only [hnl]
          have h1 := hp.1 d hd
          obtain ⟨h', ls', e1', _⟩ := hc d (by simp [hd])
          have h2 := l.sep c d (by simp [e1]) (by simp [e1']) h1
          have := a.le
          unfold headerLen at h2; omega)
      simp only [hnl] at k5 k6 k7
      refine ⟨new', (c, new.words.length) :: ps, m', by rw [k1]; rfl, k2, ?_, ?_, ?_, ?_, ?_, ?_⟩
      · rw [List.map_cons, k3, List.filter_cons, e1]
        simp [hdel]
      · rw [List.map_cons, List.pairwise_cons]
        refine ⟨?_, k4⟩
        intro d hd
        obtain ⟨p, hp1, rfl⟩ := List.mem_map.1 hd
        have := k5 p hp1
        show new.words.length < p.2
        omega
      · intro p hp
        rcases List.mem_cons.1 hp with rfl | hp
        · exact Nat.le_refl _
        · have := k5 p hp; omega
      · intro d hd
        rw [k6 d (by omega), Store.set_other _ _ (by omega)]
      · intro d hd
        by_cases hdc : d = new.words.length
        · subst hdc
          rw [k6 _ (by omega), Store.set_same]
          simp
        · by_cases hd2 : d < new.words.length + 3 + ls.length
          · rw [k6 d hd2, Store.set_other _ _ hdc]
            constructor
            · intro k; have := hm0 d k; omega
            · rintro ⟨p, hp, rfl⟩
              rcases List.mem_cons.1 hp with rfl | hp
              · exact absurd rfl hdc
              · have := k5 p hp; omega
          · rw [k7 d (by omega)]
            constructor
            · rintro ⟨p, hp, e⟩; exact ⟨p, by simp [hp], e⟩
            · rintro ⟨p, hp, e⟩
              rcases List.mem_cons.1 hp with rfl | hp
              · exact absurd e.symm hdc
              · exact ⟨p, hp, e⟩
      · intro p hp
        rcases List.mem_cons.1 hp with rfl | hp
        · refine ⟨h, ls, e1, ?_⟩
          rw [k6 _ (by simp only; omega), Store.set_same]
        · exact k8 p hp

end Varisat
