import Verif.Proof.Solver.Plain
import Verif.Spec.Stored
/-!
# The stored constraints and the formula
-/
namespace Varisat.Solver
open Api (Abs)

variable {α : Type} [LinearOrder α]
variable {F : List (List Lit)} {A : List Lit} {ids : Nat → Nat}

theorem fixed_iff {s : St α} (hp : s.p.Ok) {l : Lit} : Fixed s l ↔ s.p.Root l := by
  unfold Fixed Pt.Root
  refine and_congr_right fun ht => ⟨fun h => ?_, fun h hm => ?_⟩
  · by_cases hm : l ∈ s.p.trail
    · left
      obtain ⟨k, hk⟩ := Pt.At.of_mem hm
      exact ⟨k, hk, by rw [← hp.level k l hk]; exact h hm⟩
    · rcases hp.off l.var (by rw [Pt.isTrue_iff.1 ht]; simp) with ⟨m, h1, h2⟩ | h1
      · exfalso
        have := hp.val m h1
        rw [h2, Pt.isTrue_iff.1 ht] at this
        exact hm (Lit.ext_var_neg h2 (by simpa using this.symm) ▸ h1)
      · exact .inr h1
  · obtain ⟨k, hk⟩ := Pt.At.of_mem hm
    rcases h with ⟨k', h1, h2⟩ | h1
    · rw [hp.level k' l h1]; exact h2
    · rw [hp.depth k l hk] at h1; cases h1

theorem Core.models {s : St α} (h : Core F ids s.bins.byLit s.w s.db s.vars s.p) (σ : Asg) :
    Models s σ ↔ Holds (irrs s.bins.byLit s.db) s.vars s.p σ := by
  constructor
  · rintro ⟨⟨ν, h1, h2, h3, h4⟩, h5⟩
    have hν : ∀ l : Lit, s.vars.pres l.var → (l.holds ν ↔ l.holds (lift s.vars s.p σ)) := by
      intro l hl
      obtain ⟨g, hg⟩ := Option.isSome_iff_exists.1 hl
      unfold Lit.holds
      rw [lift_pres hg, h1 _ _ hg]
    refine ⟨⟨fun l m hm hl => ?_, fun c hc => ?_⟩, fun l hl => ?_, h5⟩
    · have p1 := (h.c.binVars l m hm).1
      have p2 := (h.c.binVars m.neg l.neg (h.c.binSym l m hm)).1
      rw [show l.neg.var = l.var by simp] at p2
      exact (hν m p1).1 (h2 l m hm ((hν l p2).2 hl))
    · obtain ⟨l, k1, k2⟩ := h3 c hc.1.1 hc.1.2 hc.2
      exact ⟨l, k1, (hν l (h.c.vars c hc.1 l k1).1).1 k2⟩
    · by_cases hp : s.vars.pres l.var
      · exact (hν l hp).1 (h4 l hp ((fixed_iff h.c.tr).2 hl))
      · unfold Lit.holds lift
        have : s.vars.gfs.map l.var = none := by simpa [Vars.pres] using hp
        rw [this]
        simp only
        rw [Pt.isTrue_iff.1 hl.1]; rfl
  · intro k
    refine ⟨⟨lift s.vars s.p σ, fun v g hg => lift_pres hg, k.cl.bin, fun c h1 h2 h3 => k.cl.long c ⟨⟨h1, h2⟩, h3⟩,
      fun l _ hl => k.root l ((fixed_iff h.c.tr).1 hl)⟩, k.unit⟩

/-- Everything stored says the same as the formula, about the variables that have a name. -/
theorem Inv.stored {a : Abs} {s : St α} (h : Inv a ids s) (hs : s.sat ≠ .unsat) (ρ : Asg) :
    Stored s ρ ↔ ∃ τ, cnfSat τ a.clauses ∧ ∀ u i, a.name u = some i → τ i = ρ u := by
  obtain ⟨hc, _⟩ := h.b.run hs
  constructor
  · rintro ⟨σ, h1, h2⟩
    obtain ⟨τ, t1, t2⟩ := hc.s2 σ ((hc.models σ).1 h1)
    refine ⟨τ, t1, fun u i hu => ?_⟩
    rw [h.n.name] at hu
    obtain ⟨g, k1, rfl⟩ := Option.map_eq_some_iff.1 hu
    obtain ⟨d, q1, q2, _⟩ := h.b.v.ulive u g k1
    rw [t2 g ⟨d, q1, q2⟩]
    exact h2 u g k1
  · rintro ⟨τ, t1, t2⟩
    refine ⟨fun g => τ (ids g), (hc.models _).2 ?_, fun u g hg => ?_⟩
    · have := hc.s1 τ t1
      exact ⟨⟨this.cl.bin, fun c h => this.cl.long c h.1⟩, this.root, this.unit⟩
    · exact t2 u (ids g) (by rw [h.n.name, hg]; rfl)

/-! ### Names of new variables -/

/-- Names are only added, and new ones are for new variables. -/
structure NameExt (a b : Abs) : Prop where
  old : ∀ u i, a.name u = some i → b.name u = some i
  new : ∀ u i, b.name u = some i → a.name u = some i ∨ a.next ≤ i
  next : a.next ≤ b.next

theorem NameExt.refl (a : Abs) : NameExt a a := ⟨fun _ _ h => h, fun _ _ h => .inl h, Nat.le_refl _⟩

theorem NameExt.trans {a b c : Abs} (h : NameExt a b) (h' : NameExt b c) : NameExt a c := by
  refine ⟨fun u i k => h'.old u i (h.old u i k), fun u i k => ?_, Nat.le_trans h.next h'.next⟩
  rcases h'.new u i k with k | k
  · exact h.new u i k
  · exact .inr (Nat.le_trans h.next k)

theorem NameExt.create (a : Abs) (v : Nat) : NameExt a (a.create v) := by
  unfold Abs.create
  by_cases k : a.name v = none
  · rw [if_pos k]
    refine ⟨fun u i h => ?_, fun u i h => ?_, Nat.le_succ _⟩
    · simp only
      rw [if_neg (fun q => by rw [q, k] at h; cases h)]; exact h
    · simp only at h
      by_cases q : u = v
      · rw [if_pos q] at h
        exact .inr (Nat.le_of_eq (Option.some.inj h))
      · rw [if_neg q] at h; exact .inl h
  · rw [if_neg k]; exact .refl a

theorem NameExt.creates : ∀ (us : List Nat) (a : Abs), NameExt a (us.foldl Abs.create a)
  | [], a => .refl a
  | u :: us, a => (NameExt.create a u).trans (NameExt.creates us _)

theorem NameExt.ensure (a : Abs) (u : Nat) : NameExt a (a.ensure u) :=
  (NameExt.creates _ a).trans (NameExt.create _ u)

theorem NameExt.ensureLits : ∀ (ls : List Lit) (a : Abs), NameExt a (a.ensureLits ls)
  | [], a => .refl a
  | l :: ls, a => (NameExt.ensure a l.var).trans (NameExt.ensureLits ls _)

theorem create_named (a : Abs) (u : Nat) : (a.create u).name u ≠ none := by
  unfold Abs.create
  by_cases k : a.name u = none
  · rw [if_pos k]; simp
  · rw [if_neg k]; exact k

theorem ensureLits_named : ∀ (ls : List Lit) (a : Abs), ∀ l ∈ ls, (a.ensureLits ls).name l.var ≠ none
  | l :: ls, a, m, hm => by
    rcases List.mem_cons.1 hm with rfl | hm
    · obtain ⟨i, hi⟩ := Option.ne_none_iff_exists'.1 (create_named ((List.range' a.len (m.var - a.len)).foldl Abs.create a) m.var)
      have := (NameExt.ensureLits ls (a.ensure m.var)).old m.var i hi
      show ((a.ensure m.var).ensureLits ls).name m.var ≠ none
      rw [this]; simp
    · exact ensureLits_named ls _ m hm

/-- A clause added to the specification. -/
theorem add_iff {a : Abs} {c : List Lit} (hocc : ∀ d ∈ a.clauses, ∀ l ∈ d, l.var < a.next)
    (hinj : ∀ u v i, (a.ensureLits c).name u = some i → (a.ensureLits c).name v = some i → u = v) (ρ : Asg) :
    (∃ τ, cnfSat τ (addAbs a c).clauses ∧ ∀ u i, (addAbs a c).name u = some i → τ i = ρ u) ↔
    (∃ τ, cnfSat τ a.clauses ∧ ∀ u i, a.name u = some i → τ i = ρ u) ∧ clauseSat ρ c := by
  have hx := NameExt.ensureLits c a
  have hn := ensureLits_named c a
  have hcl : ∀ τ : Asg, (∀ u i, (a.ensureLits c).name u = some i → τ i = ρ u) →
      (clauseSat τ (c.map (a.ensureLits c).lit) ↔ clauseSat ρ c) := by
    intro τ hτ
    unfold clauseSat
    have key : ∀ l ∈ c, (((a.ensureLits c).lit l).holds τ ↔ l.holds ρ) := by
      intro l hl
      obtain ⟨i, hi⟩ := Option.ne_none_iff_exists'.1 (hn l hl)
      unfold Lit.holds Abs.lit
      rw [hi]
      simp [hτ l.var i hi]
    constructor
    · rintro ⟨m, hm, h⟩
      obtain ⟨l, hl, rfl⟩ := List.mem_map.1 hm
      exact ⟨l, hl, (key l hl).1 h⟩
    · rintro ⟨l, hl, h⟩
      exact ⟨_, List.mem_map.2 ⟨l, hl, rfl⟩, (key l hl).2 h⟩
  constructor
  · rintro ⟨τ, h1, h2⟩
    obtain ⟨h3, h4⟩ := cnfSat_snoc.1 h1
    exact ⟨⟨τ, h3, fun u i hu => h2 u i (hx.old u i hu)⟩, (hcl τ h2).1 h4⟩
  · rintro ⟨⟨τ, h1, h2⟩, h3⟩
    classical
    obtain ⟨τ', hτ'⟩ : ∃ τ' : Asg, (∀ u i, (a.ensureLits c).name u = some i → τ' i = ρ u) ∧
        ∀ i, (∀ u, (a.ensureLits c).name u ≠ some i) → τ' i = τ i := by
      refine ⟨fun i => if h : ∃ u, (a.ensureLits c).name u = some i then ρ h.choose else τ i, fun u i hu => ?_, fun i hi => ?_⟩
      · have h : ∃ u, (a.ensureLits c).name u = some i := ⟨u, hu⟩
        simp only [dif_pos h]
        rw [hinj _ _ i h.choose_spec hu]
      · have h : ¬ ∃ u, (a.ensureLits c).name u = some i := fun ⟨u, hu⟩ => hi u hu
        simp only [dif_neg h]
    refine ⟨τ', cnfSat_snoc.2 ⟨fun d hd => ?_, (hcl τ' hτ'.1).2 h3⟩, hτ'.1⟩
    obtain ⟨l, hl, hv⟩ := h1 d hd
    refine ⟨l, hl, ?_⟩
    unfold Lit.holds at hv ⊢
    rw [← hv]
    by_cases k : ∃ u, (a.ensureLits c).name u = some l.var
    · obtain ⟨u, hu⟩ := k
      rw [hτ'.1 u _ hu]
      rcases hx.new u _ hu with q | q
      · exact (h2 u _ q).symm
      · exact absurd (hocc d hd l hl) (by omega)
    · exact hτ'.2 _ (fun u hu => k ⟨u, hu⟩)

end Varisat.Solver
