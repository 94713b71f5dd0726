import Verif.Spec.PropMemory
import Verif.Proof.Solver.PropRaw
import Verif.Proof.Solver.Reach
/-! # The memory of a solver state during propagation -/
namespace Varisat.Solver.Raw
variable {α : Type} [LinearOrder α]

theorem byCode_getD {β : Type} {n : Nat} {f : Lit → List β} {l : Lit} (h : l.code < 2 * n) : (byCode n f).getD l.code [] = f l := by
  simp [byCode, List.getD_eq_getElem?_getD, h]

theorem byCode_length {β : Type} (n : Nat) (f : Lit → List β) : (byCode n f).length = 2 * n := by simp [byCode]

/-- Live clauses have disjoint regions. -/
theorem live_sep {db : Db α} (h : DbInv db) {c d : Nat} (hc : db.Live c) (hd : db.Live d) (hcd : c < d) :
    c + 3 + (db.lits c).length ≤ d := by
  have hp := h.lay
  have h1 : db.clauses.Pairwise (fun a b => a < b → a + headerLen + (db.lits a).length ≤ b) :=
    hp.imp (by intro a b hab _; exact hab)
  have h2 : db.clauses.Pairwise (flip (fun a b => a < b → a + headerLen + (db.lits a).length ≤ b)) :=
    hp.imp (by intro a b hab k; unfold headerLen at hab; omega)
  have := List.Pairwise.forall_of_forall_of_flip (l := db.clauses) (by intro x _ h; omega) h1 h2 hc.1 hd.1 hcd
  exact this

theorem clause_some {ws : List Word} {c : Nat} {h : Header} {ls : List Word} (k : (Buf.mk ws).clause c = some (h, ls)) :
    c + 3 + ls.length ≤ ws.length ∧ (ws.getD (c + 2) 0).toNat = ls.length ∧ h = Header.ofWords (Buf.slice ws c 3) ∧
    ∀ j, j < ls.length → ws[c + 3 + j]? = ls[j]? := by
  unfold Buf.clause Buf.header at k
  simp only at k
  split at k
  · cases k
  · rename_i h' e
    split at e
    · rename_i h1
      cases e
      split at k
      · rename_i h2
        simp only [Option.some.injEq, Prod.mk.injEq] at k
        obtain ⟨k1, k2⟩ := k
        have hlen := head_len ws c
        have hl : ls.length = (Header.ofWords (Buf.slice ws c Buf.headerLen)).len := by
          rw [← k2]; exact Buf.slice_len _ _ _ h2
        refine ⟨by rw [hl]; exact h2, by rw [hl, hlen], k1.symm, fun j hj => ?_⟩
        rw [← k2, Buf.slice_get, if_pos (by omega)]
        rfl
      · cases k
    · cases e

theorem some_clause {ws : List Word} {c : Nat} {ls : List Word} (h1 : c + 3 + ls.length ≤ ws.length)
    (h2 : (ws.getD (c + 2) 0).toNat = ls.length) (h3 : ∀ j, j < ls.length → ws[c + 3 + j]? = ls[j]?) :
    (Buf.mk ws).clause c = some (Header.ofWords (Buf.slice ws c 3), ls) := by
  unfold Buf.clause Buf.header
  simp only
  rw [if_pos (by unfold Buf.headerLen; omega)]
  have hlen := head_len ws c
  rw [h2] at hlen
  simp only [hlen]
  rw [if_pos (by unfold Buf.headerLen; omega)]
  congr 2
  apply List.ext_getElem?
  intro j
  rw [Buf.slice_get]
  split
  · rename_i hj; exact h3 j hj
  · rw [List.getElem?_eq_none (by omega)]

theorem toLit_map {ls : List Lit} {j : Nat} {l : Lit} (h : ls[j]? = some l) (hl : l.code < 2 ^ 32) :
    (ls.map ofLit)[j]?.map toLit = some l := by
  rw [List.getElem?_map, h]
  simp [toLit_ofLit hl]

theorem code_lt {l : Lit} {n : Nat} (h : l.var < n) (hn : n ≤ 2 ^ 31) : l.code < 2 ^ 32 := by
  unfold Lit.var at h; omega

open Classical in
/-- A word of a buffer with the clauses. -/
noncomputable def imageWord (db : Db α) (i : Nat) : Word :=
  if h : ∃ c, db.Live c ∧ c ≤ i ∧ i < c + 3 + (db.lits c).length then
    ([0, 0, BitVec.ofNat 32 (db.lits h.choose).length] ++ (db.lits h.choose).map ofLit).getD (i - h.choose) 0
  else 0

/-- A buffer with the clauses. -/
noncomputable def imageWords (db : Db α) : List Word := (List.range db.size).map (imageWord db)

theorem imageWord_at {db : Db α} (h : DbInv db) {c j : Nat} (hc : db.Live c) (hj : j < 3 + (db.lits c).length) :
    imageWord db (c + j) = ([0, 0, BitVec.ofNat 32 (db.lits c).length] ++ (db.lits c).map ofLit).getD j 0 := by
  have hex : ∃ d, db.Live d ∧ d ≤ c + j ∧ c + j < d + 3 + (db.lits d).length := ⟨c, hc, by omega, by omega⟩
  unfold imageWord
  rw [dif_pos hex]
  have hd := hex.choose_spec
  have : hex.choose = c := by
    rcases Nat.lt_trichotomy hex.choose c with k | k | k
    · have := live_sep h hd.1 hc k; omega
    · exact k
    · have := live_sep h hc hd.1 k; omega
  rw [this, Nat.add_sub_cancel_left]

theorem imageWords_get {db : Db α} (h : DbInv db) {c j : Nat} (hc : db.Live c) (hj : j < 3 + (db.lits c).length) :
    (imageWords db)[c + j]? = some (([0, 0, BitVec.ofNat 32 (db.lits c).length] ++ (db.lits c).map ofLit).getD j 0) := by
  have := h.fit c hc.1
  unfold headerLen at this
  have hs : c + j < db.size := by omega
  simp only [imageWords, List.getElem?_map, List.getElem?_range hs, Option.map_some, imageWord_at h hc hj]

theorem imageWords_clause {db : Db α} (h : DbInv db) {c : Nat} (hc : db.Live c) (hl : (db.lits c).length < 2 ^ 32) :
    (Buf.mk (imageWords db)).clause c = some (Header.ofWords (Buf.slice (imageWords db) c 3), (db.lits c).map ofLit) := by
  apply some_clause
  · have := h.fit c hc.1
    simpa [imageWords, headerLen] using this
  · rw [List.getD_eq_getElem?_getD, imageWords_get h hc (by omega)]
    simp only [Option.getD_some, List.getD_eq_getElem?_getD, List.length_map]
    show (BitVec.ofNat 32 (db.lits c).length).toNat = _
    rw [BitVec.toNat_ofNat, Nat.mod_eq_of_lt hl]
  · intro j hj
    simp only [List.length_map] at hj
    rw [Nat.add_assoc, imageWords_get h hc (by omega), List.getD_eq_getElem?_getD, List.getElem?_append_right (by simp)]
    simp [List.getElem?_eq_getElem hj]

variable {F : List (List Lit)} {A : List Lit} {ids : Nat → Nat}

/-- The memory at the start. -/
theorem Image.of {s : St α} {w : Wl} {m : Mem} (h : SInv F A ids s) (hw : Solver.WOk (cls s.bins.byLit s.db) w.watches)
    (hm : Image s w m) (hn : s.varCount ≤ 2 ^ 31) :
    Of True m.words s.db.Live m ⟨s.p, w.watches, s.db.lits⟩ ∧
    BinOf True m.vars (byCode s.varCount s.bins.byLit) s.bins.byLit := by
  have hv : ∀ c, s.db.Live c → ∀ l ∈ s.db.lits c, l.var < s.varCount := fun c hc l hl => h.lt _ (h.core.c.vars c hc l hl).1
  have hwl : m.watches.length = 2 * s.varCount := by rw [hm.watches, byCode_length]
  refine ⟨⟨hm.p, ⟨?_, ?_, ?_, ?_, ?_, fun _ _ => rfl⟩, ?_, ?_, ?_, ?_, ?_, ?_⟩, ⟨?_, ?_, ?_⟩⟩
  · intro c hc
    obtain ⟨hd, k⟩ := hm.clause c hc
    simpa using (clause_some k).1
  · intro c hc
    have := h.core.c.len c hc
    simp only [cls] at this ⊢
    omega
  · intro c hc
    obtain ⟨hd, k⟩ := hm.clause c hc
    simpa using (clause_some k).2.1
  · intro c hc j l hj
    obtain ⟨hd, k⟩ := hm.clause c hc
    have hjl := (List.getElem?_eq_some_iff.1 hj).1
    rw [(clause_some k).2.2.2 j (by simpa using hjl)]
    exact toLit_map hj (code_lt (hv c hc l (List.mem_of_getElem? hj)) hn)
  · intro c d hc hd hcd
    exact live_sep h.core.dbi hc hd hcd
  · intro _; rw [hwl, hm.vars]
  · intro _ c hc; exact h.core.c.len c hc
  · intro _ c hc l hl; rw [hm.vars]; exact hv c hc l hl
  · intro l hl
    rw [hm.p] at hl
    have : l.var < s.varCount := h.lt _ (h.core.c.pres l hl)
    exact ⟨code_lt this hn, fun _ => by rw [hm.vars]; exact this⟩
  · intro l hl
    rw [hwl] at hl
    rw [hm.watches]
    exact byCode_getD hl
  · intro l _ x hx
    obtain ⟨k1, k2, _⟩ := hw.good l x hx
    exact ⟨k1, fun _ => by rw [hm.vars]; exact hv _ k1 _ k2⟩
  · intro _; rw [byCode_length, hm.vars]
  · intro l hl
    rw [byCode_length] at hl
    exact byCode_getD hl
  · intro l _ k hk
    have : k.var < s.varCount := h.lt _ (h.core.c.binVars l k hk).1
    exact ⟨code_lt this hn, fun _ => by rw [hm.vars]; exact this⟩

end Varisat.Solver.Raw
