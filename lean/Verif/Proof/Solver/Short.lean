import Verif.Proof.Solver.SimVars
/-!
# The sizes of proof steps
-/
namespace Varisat.Solver

open Checker (View)

theorem litCodeHash_lt (c : Nat) : litCodeHash c < 2 ^ 64 := Nat.mod_lt _ (by decide)

theorem litHash_lt (l : Lit) : litHash l < 2 ^ 64 := litCodeHash_lt _

theorem clauseHash_lt (ls : List Lit) : clauseHash ls < 2 ^ 64 := by
  unfold clauseHash
  suffices h : ∀ z, z < 2 ^ 64 → ls.foldl (fun h l => h ^^^ litHash l) z < 2 ^ 64 from h 0 (by decide)
  induction ls with
  | nil => intro z hz; exact hz
  | cons l ls ih => intro z hz; exact ih _ (Nat.xor_lt_two_pow hz (litHash_lt l))

theorem hash_lt (ls : List Lit) (l : Lit) : clauseHash ls ^^^ litHash l < 2 ^ 64 :=
  Nat.xor_lt_two_pow (clauseHash_lt ls) (litHash_lt l)

variable {x : Vars} {V : View} {ls : List Lit}

theorem SimV.lit (h : SimV x V) (hv : VInv x) {l : Lit} (hl : x.pres l.var) : (glit x l).var < V.nvars := by
  obtain ⟨g, hg⟩ := Option.isSome_iff_exists.1 hl
  obtain ⟨d, hd, -⟩ := hv.slive _ _ hg
  rw [glit_var hg, h.nvars]
  exact (List.getElem?_eq_some_iff.1 hd).1

theorem SimV.global (h : SimV x V) {g : Nat} {d : VarData} (hd : x.data[g]? = some d) : g < V.nvars := by
  rw [h.nvars]; exact (List.getElem?_eq_some_iff.1 hd).1

theorem SimV.lits (h : SimV x V) (hv : VInv x) (hp : ∀ l ∈ ls, x.pres l.var) : ∀ l ∈ ls.map (glit x), l.var < V.nvars := by
  intro l hl
  obtain ⟨k, hk, rfl⟩ := List.mem_map.1 hl
  exact h.lit hv (hp k hk)

/-- There are at most as many variables as indices. -/
theorem VInv.vars_le (hv : VInv x) {vs : List Nat} (hn : vs.Nodup) (hp : ∀ v ∈ vs, x.pres v) : vs.length ≤ x.gfs.len := by
  have h : vs ⊆ List.range x.gfs.len := by
    intro v hm
    obtain ⟨g, hg⟩ := Option.isSome_iff_exists.1 (hp v hm)
    exact List.mem_range.2 (hv.slen v g hg)
  simpa using (List.subperm_of_subset hn h).length_le

theorem Ordin.le (h : Ordin x ls) (hv : VInv x) : ls.length ≤ x.gfs.len := by
  have := hv.vars_le h.nodup (fun v hm => by obtain ⟨l, hl, rfl⟩ := List.mem_map.1 hm; exact h.pres l hl)
  simpa using this

/-- A list without repetitions. -/
theorem SimV.nodup (h : SimV x V) (hv : VInv x) (hn : ls.Nodup) (hp : ∀ l ∈ ls, x.pres l.var) : ShortLits V.nvars (ls.map (glit x)) :=
  ⟨hn.map_on fun a ha b hb he => hv.glit_inj (hp a ha) (hp b hb) he, h.lits hv hp⟩

theorem SimV.ordin (h : SimV x V) (hv : VInv x) (ho : Ordin x ls) : ShortLits V.nvars (ls.map (glit x)) := h.nodup hv ho.nd ho.pres

theorem ShortLits.length_le {n : Nat} {c : List Lit} (h : ShortLits n c) : c.length ≤ 2 * n := by
  have h1 : c.map Lit.code ⊆ List.range (2 * n) := by
    intro k hk
    obtain ⟨l, hl, rfl⟩ := List.mem_map.1 hk
    have := h.2 l hl
    unfold Lit.var at this
    exact List.mem_range.2 (by omega)
  have h2 := (List.subperm_of_subset (h.1.map_on fun a _ b _ he => by cases a; cases b; cases he; rfl) h1).length_le
  rwa [List.length_map, List.length_range] at h2

theorem SimV.at (h : SimV x V) (hv : VInv x) (ho : Ordin x ls) {hs : List Nat} (hl : hs.length ≤ x.gfs.len + 1)
    (hh : ∀ y ∈ hs, y < 2 ^ 64) {r : Bool} : Short V.nvars (gstep x (.atClause r ls hs)) := by
  refine ⟨h.ordin hv ho, ?_, hh⟩
  have h1 := h.slen
  rw [h.nvars]; omega

/-- What the analysis of failed assumptions collects. -/
theorem failLoop_le (p : Pt) (lits : Nat → List Lit) : ∀ (ls : List Lit) (f : St.Fail), (∀ y ∈ f.hashes, y < 2 ^ 64) →
    (∃ ks, ks.Sublist ls ∧ (St.failLoop p lits ls f).core = f.core ++ ks) ∧
    (St.failLoop p lits ls f).hashes.length ≤ f.hashes.length + ls.length ∧
    ∀ y ∈ (St.failLoop p lits ls f).hashes, y < 2 ^ 64
  | [], f, h => ⟨⟨[], .slnil, (List.append_nil _).symm⟩, Nat.le_refl _, h⟩
  | l :: ls, f, h => by
    have hadd : ∀ (ms : List Lit) (f : St.Fail), (ms.foldl St.Fail.addLit f).core = f.core ∧ (ms.foldl St.Fail.addLit f).hashes = f.hashes := by
      intro ms
      induction ms with
      | nil => intro f; exact ⟨rfl, rfl⟩
      | cons m ms ih =>
        intro f
        obtain ⟨h1, h2⟩ := ih (f.addLit m)
        rw [List.foldl_cons, h1, h2]
        unfold St.Fail.addLit
        split <;> exact ⟨rfl, rfl⟩
    unfold St.failLoop
    rw [List.length_cons]
    split
    · simp only
      generalize hg : (if p.reason l.var = .unit then _ else _ : St.Fail) = g
      have hb : (g.core = f.core ∨ g.core = f.core ++ [l]) ∧ g.hashes.length ≤ f.hashes.length + 1 ∧ ∀ y ∈ g.hashes, y < 2 ^ 64 := by
        subst hg
        split
        · split
          · exact ⟨.inr rfl, by simp, h⟩
          · exact ⟨.inl rfl, by simp, h⟩
        · obtain ⟨h1, h2⟩ := hadd ((p.reason l.var).lits lits) { f with
            flags := put f.flags l.var false
            count := f.count - 1
            hashes := f.hashes ++ [clauseHash ((p.reason l.var).lits lits) ^^^ litHash l] }
          rw [h1, h2]
          refine ⟨.inl rfl, by simp, fun y hy => ?_⟩
          rcases List.mem_append.1 hy with k | k
          · exact h y k
          · rw [List.mem_singleton.1 k]; exact hash_lt _ _
      split
      · refine ⟨?_, by omega, hb.2.2⟩
        rcases hb.1 with e | e
        · exact ⟨[], List.nil_sublist _, by rw [e, List.append_nil]⟩
        · exact ⟨[l], (List.nil_sublist ls).cons_cons l, e⟩
      · obtain ⟨⟨ks, k1, k1'⟩, k2, k3⟩ := failLoop_le p lits ls g hb.2.2
        refine ⟨?_, by omega, k3⟩
        rcases hb.1 with e | e
        · exact ⟨ks, k1.cons l, by rw [k1', e]⟩
        · exact ⟨l :: ks, k1.cons_cons l, by rw [k1', e, List.append_assoc]; rfl⟩
    · obtain ⟨⟨ks, k1, k1'⟩, k2, k3⟩ := failLoop_le p lits ls f h
      exact ⟨⟨ks, k1.cons l, k1'⟩, by omega, k3⟩

end Varisat.Solver
